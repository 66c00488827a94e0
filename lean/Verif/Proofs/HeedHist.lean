import Verif.Proofs.Heed
import Verif.Spec.Heed
/-!
# Histories on the LMDB store
-/
namespace Verif
namespace Heed
open Spec

/-- The identifiers recorded in the first index. -/
def quads (s : Heed) : Quads := fun a b c d =>
  a < 2 ^ 64 ∧ b < 2 ^ 64 ∧ c < 2 ^ 64 ∧ d < 2 ^ 64 ∧ key a b c d ∈ s.cfst

theorem Inv.quads_eq {s : Heed} {Q} (h : Inv s Q) : Q = quads s := by
  funext a b c d
  apply propext
  constructor
  · intro hq
    obtain ⟨l1, l2, l3, l4⟩ := h.lt hq
    exact ⟨l1, l2, l3, l4, (h.cfst _).mpr ⟨a, b, c, d, hq, rfl⟩⟩
  · rintro ⟨l1, l2, l3, l4, hk⟩
    obtain ⟨a', b', c', d', hq, e⟩ := (h.cfst _).mp hk
    obtain ⟨m1, m2, m3, m4⟩ := h.lt hq
    obtain ⟨rfl, rfl, rfl, rfl⟩ := key_inj l1 l2 l3 l4 m1 m2 m3 m4 e
    exact hq

/-- The store satisfies its representation invariant. -/
def Good (s : Heed) : Prop := Inv s (quads s)

/-- The world it stands for. -/
def worldOf (s : Heed) : World := world s (quads s)

theorem Inv.good {s : Heed} {Q} (h : Inv s Q) : Good s := by
  have := h.quads_eq; subst this; exact h

theorem good_new : Good new := inv_new.good

theorem worldOf_new : worldOf new = emptyWorld := by
  funext c; simp [worldOf, world, new, emptyWorld]

theorem exec_eq (ok : Bool) (s : Heed) (op : Op) :
    exec (opsWith ok) s op = ((execTx ok s op).1, (execTx ok s op).2.durable) := by
  cases op <;> rfl

theorem coll_inj {s : Heed} {Q} (h : Inv s Q) {c d : Str} {i j : Nat} (hc : s.collToId.get? c = some i)
    (hd : s.collToId.get? d = some j) (e : j = i) : d = c := by
  subst e
  have h1 := (h.c2i c j hc).1
  have h2 := (h.c2i d j hd).1
  rw [h1] at h2; cases h2; rfl

theorem world_congr {s s' : Heed} {Q Q'} (hinv : Inv s Q) (hc : s'.collToId = s.collToId) {c : Str} {cid : Nat}
    (h : s.collToId.get? c = some cid) (f : Trip → Prop)
    (hother : ∀ d x, d ≠ cid → (held s' Q' d x ↔ held s Q d x)) (hthis : ∀ x, held s' Q' cid x ↔ f x) :
    world s' Q' = (world s Q).set c (some f) := by
  funext d
  by_cases e : d = c
  · subst e
    simp only [world, hc, h, World.set_same, Option.map_some, Option.some.injEq]
    funext x; exact propext (hthis x)
  · rw [World.set_other _ _ e]
    simp only [world, hc]
    cases hd : s.collToId.get? d with
    | none => rfl
    | some i =>
      simp only [Option.map_some, Option.some.injEq]
      funext x
      exact propext (hother i x (fun hi => e (coll_inj hinv h hd hi)))

/-- How many identifiers have been used up. -/
def used (s : Heed) : Nat := match s.ctr with | none => 0 | some n => n + 1

/-- What an operation leaves alone or does to the rest of the state: the counter and the known texts. -/
structure Effect (s s' : Heed) (op : Op) : Prop where
  ctr : used s' ≤ used s + op.cost
  known : ∀ v, (∃ i, s'.valToId.get? v = some i) ↔ (∃ i, s.valToId.get? v = some i) ∨
    (lmdbKey v = true ∧ ∃ c ts, op = .addTriples c ts ∧ v ∈ ts.toList.flatMap texts)

theorem effect_of_tables {s s' : Heed} {op : Op} (hc : s'.ctr = s.ctr) (hv : s'.valToId = s.valToId)
    (ho : ∀ c ts, op ≠ .addTriples c ts) : Effect s s' op where
  ctr := by simp only [used, hc]; omega
  known v := by
    rw [hv]
    constructor
    · exact .inl
    · rintro (h | ⟨_, c, ts, h, _⟩)
      · exact h
      · exact absurd h (ho c ts)

/-- Everything about one operation, whatever the outcome of its commit (`ok`). -/
theorem exec_spec {s : Heed} (h : Good s) (ok : Bool) (op : Op) :
    (∀ d ∈ (execTx ok s op).2.seen, d = s ∨ d = (execTx ok s op).2.durable) ∧
    ((execTx ok s op).1 ≠ .ok () → (execTx ok s op).2.durable = s) ∧
    (ok = false → (execTx ok s op).2.durable = s) ∧
    Good (execTx ok s op).2.durable ∧
    (ok = true → (execTx ok s op).1 = .ok () → Effect s (execTx ok s op).2.durable op ∧
      ((∀ c, op = .addCollection c → lmdbKey c = true) → worldOf (execTx ok s op).2.durable = apply false (worldOf s) op)) := by
  have same : ∀ {t : Tx}, t.durable = s → (∀ d ∈ t.seen, d = s) → ∀ {r : Res Unit}, r ≠ .ok () →
      (∀ d ∈ t.seen, d = s ∨ d = t.durable) ∧ (r ≠ .ok () → t.durable = s) ∧ (ok = false → t.durable = s) ∧
      Good t.durable ∧ (ok = true → r = .ok () → Effect s t.durable op ∧
        ((∀ c, op = .addCollection c → lmdbKey c = true) → worldOf t.durable = apply false (worldOf s) op)) := by
    intro t hd hs r hr
    exact ⟨fun d hd => .inl (hs d hd), fun _ => hd, fun _ => hd, by rw [hd]; exact h, fun _ hr' => absurd hr' hr⟩
  have beginSeen : ∀ d ∈ (Tx.begin s).seen, d = s := by simp [Tx.begin]
  cases op with
  | addCollection c =>
    simp only [execTx]
    rcases addCollection_cases h ok c with ⟨⟨i, hi⟩, e⟩ | ⟨hc, hex, e⟩ | ⟨hc, hex, i, hi, hgt, t, e, hseen, hd⟩
    · rw [e]
      refine ⟨fun d hd => .inl (beginSeen d hd), fun _ => rfl, fun _ => rfl, h, ?_⟩
      intro _ _
      refine ⟨effect_of_tables rfl rfl (by simp), ?_⟩
      intro _
      have : worldOf s c = some (held s (quads s) i) := by simp [worldOf, world, hi]
      simp only [apply, this]; rfl
    · rw [e]; exact same rfl beginSeen (by simp)
    · rw [e]
      refine ⟨hseen, fun h => absurd rfl h, ?_, ?_, ?_⟩
      · rintro rfl; simpa using hd
      · dsimp only
        rw [hd]; split
        · exact (inv_fresh_coll h i hi hgt c).good
        · exact h
      · rintro rfl _
        simp only [if_true] at hd
        dsimp only
        rw [hd]
        have iv := inv_fresh_coll h i hi hgt c
        refine ⟨⟨?_, ?_⟩, ?_⟩
        · -- the new counter is one more than the old one, or 0
          unfold addCollectionTx at e
          simp only [Tx.begin, getStr_eq h, hc] at e
          cases hn : s.ctr with
          | none =>
            simp only [hn] at e
            cases e
            have := congrArg Heed.ctr hd
            simp [Tx.write, Tx.commit] at this
            simp [used, hn, ← this, Op.cost]
          | some n =>
            simp only [hn, inc] at e
            by_cases hlt : n + 1 < 2 ^ 64 <;> simp only [hlt, if_true, if_false] at e <;> cases e
            have := congrArg Heed.ctr hd
            simp [Tx.write, Tx.commit] at this
            simp [used, hn, ← this, Op.cost]
        · intro v
          constructor
          · exact .inl
          · rintro (h | ⟨_, c, ts, h, _⟩)
            · exact h
            · cases h
        · intro hl
          unfold worldOf
          rw [← iv.quads_eq, world_fresh_coll h i hgt c hc, if_pos (hl c rfl)]
  | removeCollection c =>
    simp only [execTx]
    rcases removeCollection_cases h ok c with ⟨hc, e⟩ | ⟨i, hi, t, e, hseen, hd⟩
    · rw [e]; exact same rfl beginSeen (by simp)
    · rw [e]
      refine ⟨hseen, fun h => absurd rfl h, ?_, ?_, ?_⟩
      · rintro rfl; simpa using hd
      · dsimp only
        rw [hd]; split
        · exact (inv_remove_coll h hi).good
        · exact h
      · rintro rfl _
        simp only [if_true] at hd
        dsimp only
        rw [hd]
        refine ⟨effect_of_tables rfl rfl (by simp), fun _ => ?_⟩
        unfold worldOf
        rw [← (inv_remove_coll h hi).quads_eq]; exact world_remove_coll
  | addTriples c ts =>
    simp only [execTx]
    rcases addTriples_cases h ok c ts with ⟨hc, e⟩ | ⟨cid, hi, ⟨t, e, hd, hseen, _⟩ | ⟨t, e, hseen, hd⟩⟩
    · rw [e]; exact same rfl beginSeen (by simp)
    · rw [e]; exact same hd hseen (by simp)
    · rw [e]
      cases ok with
      | false =>
        simp only [Bool.false_eq_true, if_false] at hd
        exact ⟨hseen, fun _ => hd, fun _ => hd, by dsimp only; rw [hd]; exact h, by simp⟩
      | true =>
        simp only [if_true] at hd
        obtain ⟨Q', hinv, g, ⟨n, n', hn, hn', hle⟩, hh⟩ := hd
        refine ⟨hseen, fun h => absurd rfl h, by simp, hinv.good, fun _ _ => ⟨⟨?_, ?_⟩, fun _ => ?_⟩⟩
        · simp only [used, hn, hn', Op.cost]; omega
        · intro v
          rw [g.known]
          constructor
          · rintro (h | ⟨hl, h⟩)
            · exact .inl h
            · exact .inr ⟨hl, c, ts, rfl, h⟩
          · rintro (h | ⟨hl, _, _, he, h⟩)
            · exact .inl h
            · cases he; exact .inr ⟨hl, h⟩
        · have hw : worldOf s c = some (held s (quads s) cid) := by simp [worldOf, world, hi]
          simp only [apply, hw]
          unfold worldOf
          rw [← hinv.quads_eq]
          refine world_congr h g.coll hi _ ?_ ?_
          · intro d x hne; rw [hh]; simp [hne]
          · intro x; rw [hh]; simp
  | removeTriples c ts =>
    simp only [execTx]
    rcases removeTriples_cases h ok c ts with ⟨hc, e⟩ | ⟨cid, hi, ⟨_, t, e, hd, hseen⟩ | ⟨_, t, e, hseen, hd⟩⟩
    · rw [e]; exact same rfl beginSeen (by simp)
    · rw [e]; exact same hd hseen (by simp)
    · rw [e]
      cases ok with
      | false =>
        simp only [Bool.false_eq_true, if_false] at hd
        exact ⟨hseen, fun _ => hd, fun _ => hd, by dsimp only; rw [hd]; exact h, by simp⟩
      | true =>
        simp only [if_true] at hd
        obtain ⟨Q', hinv, hcoll, hval, hctr, hh⟩ := hd
        refine ⟨hseen, fun h => absurd rfl h, by simp, hinv.good, fun _ _ => ⟨effect_of_tables hctr hval (by simp), fun _ => ?_⟩⟩
        have hw : worldOf s c = some (held s (quads s) cid) := by simp [worldOf, world, hi]
        simp only [apply, hw]
        unfold worldOf
        rw [← hinv.quads_eq]
        refine world_congr h hcoll hi _ ?_ ?_
        · intro d x hne; rw [hh]; simp [hne]
        · intro x; rw [hh]; simp

theorem good_exec {s : Heed} (h : Good s) (ok : Bool) (op : Op) : Good (exec (opsWith ok) s op).2 := by
  rw [exec_eq]; exact (exec_spec h ok op).2.2.2.1

theorem legalOp_iff {op : Op} : LegalOp op ↔ ∀ c, op = .addCollection c → lmdbKey c = true := by
  cases op <;> simp [LegalOp]

theorem worldOf_exec {s : Heed} (h : Good s) (op : Op) (hl : LegalOp op) :
    worldOf (exec ops s op).2 = applyEvent false (worldOf s) (op, (exec ops s op).1) := by
  unfold ops
  rw [exec_eq]
  obtain ⟨_, h1, _, _, h2⟩ := exec_spec h true op
  simp only [applyEvent]
  cases hr : (execTx true s op).1 with
  | ok u => cases u; exact (h2 rfl hr).2 (legalOp_iff.mp hl)
  | err m => rw [h1 (by rw [hr]; simp)]
  | panic => rw [h1 (by rw [hr]; simp)]

theorem rel_runOps (l : List Op) (hl : ∀ op ∈ l, LegalOp op) :
    Good (runOps ops new l).2 ∧ worldOf (runOps ops new l).2 = worldAfter false (runOps ops new l).1 := by
  have := runOps_refines ops false (fun s w => Good s ∧ worldOf s = w) LegalOp
    (fun s w op hop ⟨hg, hw⟩ => ⟨good_exec hg true op, by subst hw; exact worldOf_exec hg op hop⟩)
    l hl new emptyWorld ⟨good_new, worldOf_new⟩
  exact this

end Heed
end Verif
