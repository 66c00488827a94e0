import Verif.Spec.Footprint
import Verif.Proofs.Duck
/-!
# How much the DuckDB store keeps
-/
namespace Verif
namespace Duck
open Spec

theorem says_iff {s : Duck} (h : Inv s) (r : TripRow) (c : Str) (t : Trip) :
    says s r = some (c, t) ↔ (r.coll, c) ∈ s.colls ∧ Denotes s.parts r t := by
  have key : ∀ (o : Option Nat) (x : Str), textOf s.parts o = some x ↔ ∃ i, o = some i ∧ (i, x) ∈ s.parts := by
    intro o x
    cases o with
    | none => simp [textOf]
    | some i => rw [h.parts.textOf_eq]; simp
  have hc := h.colls.textOf_eq (i := r.coll)
  constructor
  · intro e
    unfold says at e
    split at e
    · rename_i c' f se th e1 e2 e3 e4
      cases e
      obtain ⟨i, a1, m1⟩ := (key _ _).mp e2
      obtain ⟨j, a2, m2⟩ := (key _ _).mp e3
      obtain ⟨k, a3, m3⟩ := (key _ _).mp e4
      exact ⟨(hc _).mp e1, i, j, k, a1, a2, a3, m1, m2, m3⟩
    · cases e
  · rintro ⟨hm, i, j, k, a1, a2, a3, m1, m2, m3⟩
    unfold says
    rw [(hc c).mpr hm, (key _ _).mpr ⟨i, a1, m1⟩, (key _ _).mpr ⟨j, a2, m2⟩, (key _ _).mpr ⟨k, a3, m3⟩]

theorem says_some {s : Duck} (h : Inv s) {r : TripRow} (hr : r ∈ s.trips) : ∃ p, says s r = some p := by
  obtain ⟨c, hc⟩ := h.rcoll r hr
  obtain ⟨f, se, t, fx, sx, tx, e1, e2, e3, m1, m2, m3⟩ := h.rows r hr
  exact ⟨(c, ⟨fx, sx, tx⟩), (says_iff h r _ _).mpr ⟨hc, f, se, t, e1, e2, e3, m1, m2, m3⟩⟩

/-- Rows keep saying the same while nothing they refer to is removed. -/
theorem says_keep {s s' : Duck} (h : Inv s) (h' : Inv s') (hp : ∀ i y, (i, y) ∈ s.parts → (i, y) ∈ s'.parts)
    {r : TripRow} (hr : r ∈ s.trips) (hc : ∀ c, (r.coll, c) ∈ s.colls → (r.coll, c) ∈ s'.colls) : says s' r = says s r := by
  obtain ⟨⟨c, t⟩, e⟩ := says_some h hr
  rw [e, says_iff h']
  obtain ⟨m, d⟩ := (says_iff h r c t).mp e
  exact ⟨hc c m, (denotes_mono h h' hp hr t).mpr d⟩

/-- The table and the log agree line by line. -/
def Logged (s : Duck) (log : List (Str × Trip)) : Prop := s.trips.map (says s) = log.map some

theorem logged_addOne {s : Duck} (h : Inv s) {cid : Nat} {c : Str} (hc : (cid, c) ∈ s.colls) (t : Trip) {log}
    (hl : Logged s log) : Logged (addOne cid s t) (log ++ [(c, t)]) := by
  obtain ⟨hi, hcol, _⟩ := addOne_spec h hc t
  obtain ⟨i1, c1, t1, p1, k1, q1⟩ := addPart_spec h t.fst
  obtain ⟨i2, c2, t2, p2, k2, q2⟩ := addPart_spec i1 t.snd
  obtain ⟨i3, c3, t3, p3, k3, q3⟩ := addPart_spec i2 t.thd
  have ht : (addPart (addPart (addPart s t.fst) t.snd) t.thd).trips = s.trips := t3.trans (t2.trans t1)
  have hp : ∀ i y, (i, y) ∈ s.parts → (i, y) ∈ (addOne cid s t).parts := fun i y hy => p3 _ _ (p2 _ _ (p1 _ _ hy))
  unfold Logged at *
  have e : (addOne cid s t).trips = s.trips ++ [⟨(addPart (addPart (addPart s t.fst) t.snd) t.thd).seq, cid,
      some k1, some k2, some k3⟩] := by
    show _ ++ [_] = _
    rw [ht, (i3.parts.idOf_eq _ _).mpr (p3 _ _ (p2 _ _ q1)), (i3.parts.idOf_eq _ _).mpr (p3 _ _ q2), (i3.parts.idOf_eq _ _).mpr q3]
  rw [e, List.map_append, List.map_append, ← hl]
  congr 1
  · exact List.map_congr_left fun r hr => says_keep h hi hp hr (fun c hc => by rw [hcol]; exact hc)
  · simp only [List.map_cons, List.map_nil, List.cons.injEq, and_true]
    rw [says_iff hi]
    exact ⟨by rw [hcol]; exact hc, k1, k2, k3, rfl, rfl, rfl, p3 _ _ (p2 _ _ q1), p3 _ _ q2, q3⟩

theorem logged_addAll {cid : Nat} {c : Str} (l : List Trip) : ∀ (s : Duck) (log : List (Str × Trip)), Inv s → (cid, c) ∈ s.colls →
    Logged s log → Logged (l.foldl (addOne cid) s) (log ++ l.map fun t => (c, t)) := by
  induction l with
  | nil => intro s log _ _ hl; simpa using hl
  | cons t l ih =>
    intro s log h hc hl
    obtain ⟨h1, c1, _⟩ := addOne_spec h hc t
    have := ih _ _ h1 (by rw [c1]; exact hc) (logged_addOne h hc t hl)
    simpa using this

theorem logged_removeTrip {s : Duck} (h : Inv s) {cid : Nat} {c : Str} (hc : (cid, c) ∈ s.colls) (t : Trip) {log}
    (hl : Logged s log) : Logged (removeTrip s cid t) (log.filter fun p => decide (¬ (p.1 = c ∧ p.2 = t))) := by
  unfold Logged at *
  let q : Option (Str × Trip) → Bool := fun o => match o with | some p => decide (¬ (p.1 = c ∧ p.2 = t)) | none => true
  have h1 : (log.filter fun p => decide (¬ (p.1 = c ∧ p.2 = t))).map some = (log.map some).filter q := by
    rw [List.filter_map]; rfl
  rw [h1, ← hl, List.filter_map]
  have h2 : (removeTrip s cid t).trips = s.trips.filter (q ∘ says s) := by
    unfold removeTrip
    refine List.filter_congr fun r hr => ?_
    obtain ⟨⟨c', t'⟩, e⟩ := says_some h hr
    simp only [Function.comp, e, q]
    obtain ⟨m, d⟩ := (says_iff h r c' t').mp e
    rw [Bool.eq_iff_iff]
    simp only [Bool.not_eq_true', decide_eq_true_eq, ← Bool.not_eq_true]
    refine not_congr ?_
    simp only [Bool.and_eq_true, beq_iff_eq, sqlEq_iff, h.parts.idOf_eq]
    constructor
    · rintro ⟨⟨⟨rfl, i, e1, m1⟩, j, e2, m2⟩, k, e3, m3⟩
      have := (says_iff h r c t).mpr ⟨hc, i, j, k, e1, e2, e3, m1, m2, m3⟩
      rw [e] at this; cases this; exact ⟨rfl, rfl⟩
    · rintro ⟨rfl, rfl⟩
      obtain ⟨i, j, k, e1, e2, e3, m1, m2, m3⟩ := d
      exact ⟨⟨⟨h.colls.utext _ _ _ m hc, i, e1, m1⟩, j, e2, m2⟩, k, e3, m3⟩
  rw [h2]
  rfl

theorem logged_removeAll {cid : Nat} {c : Str} (l : List Trip) : ∀ (s : Duck) (log : List (Str × Trip)), Inv s → (cid, c) ∈ s.colls →
    Logged s log →
    Logged (l.foldl (fun s t => removeTrip s cid t) s) (log.filter fun p => decide (¬ (p.1 = c ∧ p.2 ∈ l))) := by
  induction l with
  | nil =>
    intro s log _ _ hl
    have : (log.filter fun p => decide (¬ (p.1 = c ∧ p.2 ∈ ([] : List Trip)))) = log := by
      rw [List.filter_eq_self]; simp
    rw [this]; exact hl
  | cons t l ih =>
    intro s log h hc hl
    obtain ⟨h1, c1, _⟩ := removeTrip_spec h cid t
    have := ih _ _ h1 (by rw [c1]; exact hc) (logged_removeTrip h hc t hl)
    rw [List.foldl_cons]
    rw [List.filter_filter] at this
    refine (congrArg (Logged _) (List.filter_congr fun p _ => ?_)).mp this
    rw [Bool.eq_iff_iff]
    simp only [Bool.and_eq_true, decide_eq_true_eq, List.mem_cons]
    grind

/-- One line of the log. -/
def logStep (log : List (Str × Trip)) (e : Event) : List (Str × Trip) :=
  match e with
  | (.addTriples c ts, .ok _) => log ++ ts.toList.map fun t => (c, t)
  | (.removeTriples c ts, .ok _) => log.filter fun p => decide (¬ (p.1 = c ∧ p.2 ∈ ts))
  | _ => log

theorem logged_exec {s : Duck} (h : Inv s) {log} (hl : Logged s log) (op : Op) :
    Logged (exec ops s op).2 (logStep log (op, (exec ops s op).1)) := by
  have hi := (exec_spec h op).1
  cases op with
  | addCollection c =>
    simp only [exec, ops, addCollection] at *
    cases hc : idOf s.colls c with
    | some i => rw [hc] at hi; exact hl
    | none =>
      rw [hc] at hi
      simp only [logStep, Logged] at *
      rw [← hl]
      exact List.map_congr_left fun r hr => says_keep h hi (fun _ _ h => h) hr (fun c h => List.mem_append_left _ h)
  | removeCollection c =>
    simp only [exec, ops, removeCollection] at *
    cases hc : idOf s.colls c with
    | none => exact hl
    | some i =>
      rw [hc] at hi
      dsimp only at *
      by_cases hr : s.trips.any (fun r => r.coll == i) = true
      · simp only [hr, if_true]; exact hl
      · simp only [hr] at hi ⊢
        simp only [logStep, Logged] at *
        have hr' : ∀ r ∈ s.trips, r.coll ≠ i := by
          intro r hm he; exact hr (List.any_eq_true.mpr ⟨r, hm, by simpa using he⟩)
        rw [← hl]
        refine List.map_congr_left fun r hm => says_keep h hi (fun _ _ h => h) hm (fun d hd => ?_)
        refine List.mem_filter.mpr ⟨hd, ?_⟩
        simp only [ne_eq, decide_eq_true_eq]
        rintro rfl
        exact hr' r hm (h.colls.utext _ _ _ hd ((h.colls.idOf_eq _ _).mp hc))
  | addTriples c ts =>
    simp only [exec, ops, addTriples, getCollectionId] at *
    cases hc : idOf s.colls c with
    | none => exact hl
    | some cid => exact logged_addAll ts.toList s log h ((h.colls.idOf_eq _ _).mp hc) hl
  | removeTriples c ts =>
    simp only [exec, ops, removeTriples, getCollectionId] at *
    cases hc : idOf s.colls c with
    | none => exact hl
    | some cid => exact logged_removeAll ts.toList s log h ((h.colls.idOf_eq _ _).mp hc) hl

theorem logged_runOps (l : List Op) : ∀ (s : Duck) (log : List (Str × Trip)), Inv s → Logged s log →
    Logged (runOps ops s l).2 ((runOps ops s l).1.foldl logStep log) := by
  induction l with
  | nil => intro s log _ hl; exact hl
  | cons op l ih => intro s log h hl; exact ih _ _ (exec_spec h op).1 (logged_exec h hl op)

/-! ## The texts on record -/

theorem parts_addPart (s : Duck) (h : Inv s) (x y : Str) : (∃ i, (i, y) ∈ (addPart s x).parts) ↔ (∃ i, (i, y) ∈ s.parts) ∨ y = x := by
  unfold addPart
  cases hi : idOf s.parts x with
  | some i =>
    constructor
    · exact .inl
    · rintro (h' | rfl)
      · exact h'
      · exact ⟨i, (h.parts.idOf_eq _ _).mp hi⟩
  | none =>
    simp only [List.mem_append, List.mem_singleton, Prod.mk.injEq]
    constructor
    · rintro ⟨i, h' | ⟨_, rfl⟩⟩
      · exact .inl ⟨i, h'⟩
      · exact .inr rfl
    · rintro (⟨i, h'⟩ | rfl)
      · exact ⟨i, .inl h'⟩
      · exact ⟨_, .inr ⟨rfl, rfl⟩⟩

theorem parts_addAll {cid : Nat} {c : Str} (l : List Trip) : ∀ (s : Duck), Inv s → (cid, c) ∈ s.colls → ∀ y,
    (∃ i, (i, y) ∈ (l.foldl (addOne cid) s).parts) ↔ (∃ i, (i, y) ∈ s.parts) ∨ y ∈ l.flatMap tripTexts := by
  induction l with
  | nil => intro s _ _ y; simp
  | cons t l ih =>
    intro s h hc y
    obtain ⟨h1, c1, _⟩ := addOne_spec h hc t
    obtain ⟨i1, _⟩ := addPart_spec h t.fst
    obtain ⟨i2, _⟩ := addPart_spec i1 t.snd
    rw [List.foldl_cons, ih _ h1 (by rw [c1]; exact hc)]
    have e : (∃ i, (i, y) ∈ (addOne cid s t).parts) ↔ (((∃ i, (i, y) ∈ s.parts) ∨ y = t.fst) ∨ y = t.snd) ∨ y = t.thd := by
      rw [← parts_addPart s h, ← parts_addPart _ i1, ← parts_addPart _ i2]; rfl
    rw [e, List.flatMap_cons, List.mem_append]
    simp only [tripTexts, List.mem_cons, List.not_mem_nil, or_false]
    grind

theorem parts_removeAll {cid : Nat} (l : List Trip) : ∀ (s : Duck), (l.foldl (fun s t => removeTrip s cid t) s).parts = s.parts := by
  induction l with
  | nil => intro s; rfl
  | cons t l ih => intro s; rw [List.foldl_cons, ih]; rfl

theorem parts_exec {s : Duck} (h : Inv s) (op : Op) (y : Str) :
    (∃ i, (i, y) ∈ (exec ops s op).2.parts) ↔
      (∃ i, (i, y) ∈ s.parts) ∨ ∃ c ts, (op, (exec ops s op).1) = (.addTriples c ts, .ok ()) ∧ ∃ t ∈ ts, y ∈ tripTexts t := by
  cases op with
  | addCollection c =>
    simp only [exec, ops, addCollection]
    cases idOf s.colls c <;> simp
  | removeCollection c =>
    simp only [exec, ops, removeCollection]
    cases idOf s.colls c with
    | none => simp
    | some i => dsimp only; split <;> simp
  | addTriples c ts =>
    simp only [exec, ops, addTriples, getCollectionId]
    cases hc : idOf s.colls c with
    | none => simp
    | some cid =>
      dsimp only
      rw [parts_addAll ts.toList s h ((h.colls.idOf_eq _ _).mp hc)]
      refine or_congr Iff.rfl ?_
      rw [List.mem_flatMap]
      constructor
      · rintro ⟨t, ht, hy⟩; exact ⟨c, ts, rfl, t, ht, hy⟩
      · rintro ⟨c', ts', e, t, ht, hy⟩; cases e; exact ⟨t, ht, hy⟩
  | removeTriples c ts =>
    simp only [exec, ops, removeTriples, getCollectionId]
    cases hc : idOf s.colls c with
    | none => simp
    | some cid => dsimp only; rw [parts_removeAll]; simp

theorem parts_runOps (l : List Op) : ∀ (s : Duck), Inv s → ∀ y, (∃ i, (i, y) ∈ (runOps ops s l).2.parts) ↔
    (∃ i, (i, y) ∈ s.parts) ∨ ∃ c ts, (Op.addTriples c ts, Res.ok ()) ∈ (runOps ops s l).1 ∧ ∃ t ∈ ts, y ∈ tripTexts t := by
  induction l with
  | nil => intro s _ y; simp [runOps]
  | cons op l ih =>
    intro s h y
    simp only [runOps]
    rw [ih _ (exec_spec h op).1, parts_exec h op]
    simp only [List.mem_cons]
    constructor
    · rintro ((h | ⟨c, ts, e, h⟩) | ⟨c, ts, hm, h⟩)
      · exact .inl h
      · exact .inr ⟨c, ts, .inl e.symm, h⟩
      · exact .inr ⟨c, ts, .inr hm, h⟩
    · rintro (h | ⟨c, ts, e | hm, h⟩)
      · exact .inl (.inl h)
      · exact .inl (.inr ⟨c, ts, e.symm, h⟩)
      · exact .inr ⟨c, ts, hm, h⟩

end Duck
end Verif
