import Verif.Spec.Store
/-!
# Generic lemmas on histories
-/
namespace Verif
namespace Spec

@[simp] theorem World.set_same (w : World) (c : Str) (v) : w.set c v c = v := by simp [World.set]
theorem World.set_other (w : World) {c d : Str} (v) (h : d ≠ c) : w.set c v d = w d := by simp [World.set, h]

/-- An operation changes the world only at its target. -/
theorem apply_other (b : Bool) (w : World) (op : Op) (d : Str) (h : d ≠ op.target) : apply b w op d = w d := by
  cases op with
  | addCollection c =>
    simp only [apply]
    cases w c with
    | none => exact World.set_other _ _ h
    | some p => cases b with
      | true => exact World.set_other _ _ h
      | false => rfl
  | removeCollection c => exact World.set_other _ _ h
  | addTriples c ts =>
    simp only [apply]
    cases w c with
    | none => rfl
    | some p => exact World.set_other _ _ h
  | removeTriples c ts =>
    simp only [apply]
    cases w c with
    | none => rfl
    | some p => exact World.set_other _ _ h

theorem applyEvent_other (b : Bool) (w : World) (e : Event) (d : Str) (h : d ≠ e.1.target) : applyEvent b w e d = w d := by
  obtain ⟨op, r⟩ := e
  cases r with
  | ok u => exact apply_other b w op d h
  | err m => rfl
  | panic => rfl

/-- Refinement lifts from single operations to histories. -/
theorem runOps_refines (T : TripsOps σ) (clears : Bool) (R : σ → World → Prop) (P : Op → Prop)
    (hstep : ∀ s w op, P op → R s w → R (exec T s op).2 (applyEvent clears w (op, (exec T s op).1)))
    (ops : List Op) (hops : ∀ op ∈ ops, P op) : ∀ (s : σ) (w : World), R s w →
    R (runOps T s ops).2 ((runOps T s ops).1.foldl (applyEvent clears) w) := by
  induction ops with
  | nil => intro s w h; exact h
  | cons op ops ih =>
    intro s w h
    simp only [runOps, List.foldl_cons]
    exact ih (fun o ho => hops o (by simp [ho])) _ _ (hstep s w op (hops op (by simp)) h)

/-- An invariant lifts from single operations to histories. -/
theorem runOps_inv (T : TripsOps σ) (I : σ → Prop)
    (hstep : ∀ s op, I s → I (exec T s op).2) (ops : List Op) : ∀ s, I s → I (runOps T s ops).2 := by
  induction ops with
  | nil => intro s h; exact h
  | cons op ops ih => intro s h; exact ih _ (hstep s op h)

theorem runOps_append (T : TripsOps σ) (s : σ) (a b : List Op) :
    runOps T s (a ++ b) =
      ((runOps T s a).1 ++ (runOps T (runOps T s a).2 b).1, (runOps T (runOps T s a).2 b).2) := by
  induction a generalizing s with
  | nil => simp [runOps]
  | cons op a ih => simp [runOps, ih]

end Spec
end Verif

namespace Verif
namespace Spec

theorem Agrees.listed {T : TripsOps σ} {s : σ} {w : World} (h : Agrees T s w) (c : Str) : Listed T s c ↔ (w c).isSome := by
  obtain ⟨⟨l, hl, _, hm⟩, _⟩ := h
  rw [← hm]
  constructor
  · rintro ⟨l', hl', hc⟩; rw [hl] at hl'; cases hl'; exact hc
  · intro hc; exact ⟨l, hl, hc⟩

theorem Agrees.sameView {T : TripsOps σ} {s : σ} {T' : TripsOps τ} {s' : τ} {w : World}
    (h : Agrees T s w) (h' : Agrees T' s' w) : SameView T s T' s' := by
  refine ⟨fun c => (h.listed c).trans (h'.listed c).symm, ?_⟩
  intro c hc
  obtain ⟨p, hp⟩ := Option.isSome_iff_exists.mp ((h.listed c).mp hc)
  obtain ⟨ts, ht, hts⟩ := h.2 c p hp
  obtain ⟨ts', ht', hts'⟩ := h'.2 c p hp
  have : ts' = ts := BSet.ext fun t => (hts' t).trans (hts t).symm
  subst this
  exact ⟨ts', ht, ht'⟩

/-- Whether a collection is present depends only on the additions and removals acknowledged. -/
theorem worldAfter_isSome (b : Bool) (h : List Event) (c : Str) :
    (worldAfter b h c).isSome ↔ AddedNotRemoved h c := by
  unfold worldAfter
  have step : ∀ (w : World) (e : Event), (applyEvent b w e c).isSome ↔
      (e = (.addCollection c, .ok ()) ∨ ((w c).isSome ∧ e ≠ (.removeCollection c, .ok ()))) := by
    rintro w ⟨op, r⟩
    cases r with
    | err m => simp [applyEvent]
    | panic => simp [applyEvent]
    | ok u =>
      cases u
      simp only [applyEvent]
      by_cases hc : c = op.target
      · subst hc
        cases op with
        | addCollection c =>
          simp only [apply, Op.target]
          cases hw : w c with
          | none => simp
          | some p => cases b <;> simp [hw]
        | removeCollection c => simp [apply, Op.target]
        | addTriples c ts =>
          simp only [apply, Op.target]
          cases hw : w c <;> simp [hw]
        | removeTriples c ts =>
          simp only [apply, Op.target]
          cases hw : w c <;> simp [hw]
      · rw [apply_other b w op c hc]
        have h1 : op ≠ .addCollection c := by rintro rfl; exact hc rfl
        have h2 : op ≠ .removeCollection c := by rintro rfl; exact hc rfl
        simp [h1, h2]
  suffices H : ∀ (h : List Event) (w : World), (h.foldl (applyEvent b) w c).isSome ↔
      (AddedNotRemoved h c ∨ ((w c).isSome ∧ (.removeCollection c, .ok ()) ∉ h)) by
    rw [H]; simp [emptyWorld]
  intro h
  induction h with
  | nil => intro w; simp [AddedNotRemoved]
  | cons e h ih =>
    intro w
    rw [List.foldl_cons, ih, step]
    have hcons : AddedNotRemoved (e :: h) c ↔
        AddedNotRemoved h c ∨ (e = (.addCollection c, .ok ()) ∧ (.removeCollection c, .ok ()) ∉ h) := by
      constructor
      · rintro ⟨before, after, he, hn⟩
        cases before with
        | nil => simp only [List.nil_append, List.cons.injEq] at he; obtain ⟨rfl, rfl⟩ := he; exact .inr ⟨rfl, hn⟩
        | cons x before =>
          simp only [List.cons_append, List.cons.injEq] at he
          exact .inl ⟨before, after, he.2, hn⟩
      · rintro (⟨before, after, rfl, hn⟩ | ⟨rfl, hn⟩)
        · exact ⟨e :: before, after, rfl, hn⟩
        · exact ⟨[], h, rfl, hn⟩
    rw [hcons, List.mem_cons, not_or]
    constructor
    · rintro (h1 | ⟨h1 | ⟨h1, h2⟩, h3⟩)
      · exact .inl (.inl h1)
      · exact .inl (.inr ⟨h1, h3⟩)
      · exact .inr ⟨h1, fun e => h2 e.symm, h3⟩
    · rintro ((h1 | ⟨h1, h3⟩) | ⟨h1, h2, h3⟩)
      · exact .inl h1
      · exact .inr ⟨.inl h1, h3⟩
      · exact .inr ⟨.inr ⟨h1, fun e => h2 e.symm⟩, h3⟩

end Spec
end Verif
