import Verif.Proofs.Duck
import Verif.Model.DuckSql
import Verif.Spec.DuckSql
/-!
# DuckDB with what SQL leaves open left open
-/
namespace Verif
namespace DuckSql
open Duck Spec

theorem Rearranged.refl (s : Duck) : Rearranged s s := ⟨Nat.le_refl _, .refl _, .refl _, .refl _⟩

theorem Rearranged.trans {s t u : Duck} (h : Rearranged s t) (h' : Rearranged t u) : Rearranged s u :=
  ⟨Nat.le_trans h.seq h'.seq, h'.parts.trans h.parts, h'.colls.trans h.colls, h'.trips.trans h.trips⟩

theorem dict_perm {a b : List (Nat × Str)} {n m : Nat} (h : Dict a n) (hp : b.Perm a) (hn : n ≤ m) : Dict b m where
  uid i x y hx hy := h.uid i x y (hp.mem_iff.mp hx) (hp.mem_iff.mp hy)
  utext i j x hx hy := h.utext i j x (hp.mem_iff.mp hx) (hp.mem_iff.mp hy)
  below i x hx := Nat.lt_of_lt_of_le (h.below i x (hp.mem_iff.mp hx)) hn
  names := (hp.map Prod.snd).nodup_iff.mpr h.names

theorem idOf_perm {a b : List (Nat × Str)} {n m : Nat} (ha : Dict a n) (hb : Dict b m) (hp : b.Perm a) (x : Str) : idOf b x = idOf a x := by
  apply Option.ext
  intro i
  rw [hb.idOf_eq, ha.idOf_eq, hp.mem_iff]

theorem denotes_perm {a b : List (Nat × Str)} (hp : b.Perm a) (r : TripRow) (t : Trip) : Denotes b r t ↔ Denotes a r t := by
  simp only [Denotes, hp.mem_iff]

theorem inv_rearranged {s t : Duck} (h : Duck.Inv s) (hr : Rearranged s t) : Duck.Inv t where
  parts := dict_perm h.parts hr.parts hr.seq
  colls := dict_perm h.colls hr.colls hr.seq
  rcoll r hm := by
    obtain ⟨c, hc⟩ := h.rcoll r (hr.trips.mem_iff.mp hm)
    exact ⟨c, hr.colls.mem_iff.mpr hc⟩
  rows r hm := by
    obtain ⟨f, se, t, fx, sx, tx, e1, e2, e3, m1, m2, m3⟩ := h.rows r (hr.trips.mem_iff.mp hm)
    exact ⟨f, se, t, fx, sx, tx, e1, e2, e3, hr.parts.mem_iff.mpr m1, hr.parts.mem_iff.mpr m2, hr.parts.mem_iff.mpr m3⟩

theorem held_rearranged {s t : Duck} (hr : Rearranged s t) (d : Nat) (x : Trip) : held t d x ↔ held s d x := by
  simp only [held, hr.trips.mem_iff, denotes_perm hr.parts]

theorem world_rearranged {s t : Duck} (h : Duck.Inv s) (hr : Rearranged s t) : world t = world s := by
  funext c
  simp only [world, idOf_perm h.colls (inv_rearranged h hr).colls hr.colls]
  congr 1
  funext d x
  exact propext (held_rearranged hr d x)

/-- Only `colls` up to order, and what each collection holds, matter. -/
theorem world_update' {s s' : Duck} (h : Duck.Inv s) (h' : Duck.Inv s') (hc : s'.colls.Perm s.colls) {c : Str} {cid : Nat}
    (hi : idOf s.colls c = some cid) (f : Trip → Prop)
    (hother : ∀ d x, d ≠ cid → (held s' d x ↔ held s d x)) (hthis : ∀ x, held s' cid x ↔ f x) :
    world s' = (world s).set c (some f) := by
  funext d
  by_cases e : d = c
  · subst e
    simp only [world, idOf_perm h.colls h'.colls hc, hi, World.set_same, Option.map_some, Option.some.injEq]
    funext x; exact propext (hthis x)
  · rw [World.set_other _ _ e]
    simp only [world, idOf_perm h.colls h'.colls hc]
    cases hd : idOf s.colls d with
    | none => rfl
    | some j =>
      simp only [Option.map_some, Option.some.injEq]
      funext x
      refine propext (hother j x ?_)
      rintro rfl
      exact e (h.colls.uid _ _ _ ((h.colls.idOf_eq _ _).mp hd) ((h.colls.idOf_eq _ _).mp hi))

/-- `u` has more texts than `s`, and otherwise the same rows. -/
structure More (s u : Duck) : Prop where
  inv : Duck.Inv u
  colls : u.colls.Perm s.colls
  trips : u.trips.Perm s.trips
  parts : ∀ i y, (i, y) ∈ s.parts → (i, y) ∈ u.parts

theorem more_part {s t u : Duck} (h : More s t) (hr : Rearranged t u) (x : Str) :
    More s (addPart u x) ∧ (∃ i, (i, x) ∈ (addPart u x).parts) ∧ ∀ i y, (i, y) ∈ t.parts → (i, y) ∈ (addPart u x).parts := by
  obtain ⟨i1, c1, t1, p1, q1⟩ := addPart_spec (inv_rearranged h.inv hr) x
  have hp : ∀ i y, (i, y) ∈ t.parts → (i, y) ∈ (addPart u x).parts := fun i y hy => p1 _ _ (hr.parts.mem_iff.mpr hy)
  exact ⟨⟨i1, by rw [c1]; exact hr.colls.trans h.colls, by rw [t1]; exact hr.trips.trans h.trips, fun i y hy => hp _ _ (h.parts _ _ hy)⟩, q1, hp⟩

theorem addTrip_spec {s s' : Duck} (h : Duck.Inv s) (m : More s s') {cid : Nat} {c : Str} (hc : (cid, c) ∈ s.colls) (t : Trip)
    (q1 : ∃ i, (i, t.fst) ∈ s'.parts) (q2 : ∃ i, (i, t.snd) ∈ s'.parts) (q3 : ∃ i, (i, t.thd) ∈ s'.parts) :
    Duck.Inv (addTrip s' cid t) ∧ (addTrip s' cid t).colls.Perm s.colls ∧
    ∀ d x, held (addTrip s' cid t) d x ↔ held s d x ∨ (d = cid ∧ x = t) := by
  obtain ⟨k1, q1⟩ := q1
  obtain ⟨k2, q2⟩ := q2
  obtain ⟨k3, q3⟩ := q3
  have i3 := m.inv
  have e1 := (i3.parts.idOf_eq _ _).mpr q1
  have e2 := (i3.parts.idOf_eq _ _).mpr q2
  have e3 := (i3.parts.idOf_eq _ _).mpr q3
  simp only [addTrip, e1, e2, e3]
  refine ⟨⟨i3.parts.mono (Nat.le_succ _), i3.colls.mono (Nat.le_succ _), ?_, ?_⟩, m.colls, ?_⟩
  · intro r hr
    simp only [List.mem_append, List.mem_singleton] at hr
    rcases hr with hr | rfl
    · exact i3.rcoll r hr
    · exact ⟨c, m.colls.mem_iff.mpr hc⟩
  · intro r hr
    simp only [List.mem_append, List.mem_singleton] at hr
    rcases hr with hr | rfl
    · exact i3.rows r hr
    · exact ⟨_, _, _, _, _, _, rfl, rfl, rfl, q1, q2, q3⟩
  · intro d x
    simp only [held, List.mem_append, List.mem_singleton]
    constructor
    · rintro ⟨r, hr | rfl, hrc, hd⟩
      · rw [m.trips.mem_iff] at hr
        exact .inl ⟨r, hr, hrc, (denotes_mono h i3 m.parts hr x).mp hd⟩
      · obtain ⟨f, se, th, e1', e2', e3', m1, m2, m3⟩ := hd
        cases e1'; cases e2'; cases e3'
        refine .inr ⟨hrc.symm, ?_⟩
        obtain ⟨a, b, g⟩ := x
        obtain ⟨a', b', g'⟩ := t
        rw [Trip.mk.injEq]
        exact ⟨i3.parts.uid _ _ _ m1 q1, i3.parts.uid _ _ _ m2 q2, i3.parts.uid _ _ _ m3 q3⟩
    · rintro (⟨r, hr, hrc, hd⟩ | ⟨rfl, rfl⟩)
      · exact ⟨r, .inl (m.trips.mem_iff.mpr hr), hrc, (denotes_mono h i3 m.parts hr x).mpr hd⟩
      · exact ⟨_, .inr rfl, rfl, _, _, _, rfl, rfl, rfl, q1, q2, q3⟩

theorem next_inv {mf : Bool} {s u : Duck} {st : Stmt} {l : List Stmt} (h : Transacts mf s (st :: l) (some u)) :
    ∃ t v, Rearranged s t ∧ st.run t = some v ∧ Transacts mf v l (some u) := by
  cases h with
  | next hr hs hl => exact ⟨_, _, hr, hs, hl⟩

theorem nil_inv {mf : Bool} {s u : Duck} (h : Transacts mf s [] (some u)) : Rearranged s u := by
  cases h with
  | commit hr => exact hr

theorem adds_spec {mf : Bool} {cid : Nat} {c : Str} (l : List Trip) : ∀ s : Duck, Duck.Inv s → (cid, c) ∈ s.colls → ∀ u,
    Transacts mf s (l.flatMap (addStmts cid)) (some u) →
    Duck.Inv u ∧ u.colls.Perm s.colls ∧ ∀ d x, held u d x ↔ held s d x ∨ (d = cid ∧ x ∈ l) := by
  induction l with
  | nil =>
    intro s h _ u ht
    have hr := nil_inv ht
    exact ⟨inv_rearranged h hr, hr.colls, fun d x => by rw [held_rearranged hr]; simp⟩
  | cons t l ih =>
    intro s h hc u ht
    simp only [List.flatMap_cons, addStmts, List.cons_append, List.nil_append] at ht
    obtain ⟨a1, b1, r1, e1, ht⟩ := next_inv ht
    obtain ⟨a2, b2, r2, e2, ht⟩ := next_inv ht
    obtain ⟨a3, b3, r3, e3, ht⟩ := next_inv ht
    obtain ⟨a4, b4, r4, e4, ht⟩ := next_inv ht
    simp only [Stmt.run, Option.some.injEq] at e1 e2 e3 e4
    subst e1 e2 e3 e4
    obtain ⟨m1, ⟨i1, q1⟩, p1⟩ := more_part (s := s) ⟨h, .refl _, .refl _, fun _ _ h => h⟩ r1 t.fst
    obtain ⟨m2, ⟨i2, q2⟩, p2⟩ := more_part m1 r2 t.snd
    obtain ⟨m3, ⟨i3, q3⟩, p3⟩ := more_part m2 r3 t.thd
    have m4 : More s a4 := ⟨inv_rearranged m3.inv r4, r4.colls.trans m3.colls, r4.trips.trans m3.trips,
      fun i y hy => r4.parts.mem_iff.mpr (m3.parts i y hy)⟩
    obtain ⟨h1, c1, k1⟩ := addTrip_spec h m4 hc t ⟨i1, r4.parts.mem_iff.mpr (p3 _ _ (p2 _ _ q1))⟩
      ⟨i2, r4.parts.mem_iff.mpr (p3 _ _ q2)⟩ ⟨i3, r4.parts.mem_iff.mpr q3⟩
    obtain ⟨h2, c2, k2⟩ := ih _ h1 (c1.mem_iff.mpr hc) u ht
    refine ⟨h2, c2.trans c1, fun d x => ?_⟩
    rw [k2, k1, List.mem_cons]
    grind

theorem removes_spec {mf : Bool} {cid : Nat} (l : List Trip) : ∀ s : Duck, Duck.Inv s → ∀ u,
    Transacts mf s (l.map (.deleteTrip cid)) (some u) →
    Duck.Inv u ∧ u.colls.Perm s.colls ∧ ∀ d x, held u d x ↔ held s d x ∧ ¬ (d = cid ∧ x ∈ l) := by
  induction l with
  | nil =>
    intro s h u ht
    have hr := nil_inv ht
    exact ⟨inv_rearranged h hr, hr.colls, fun d x => by rw [held_rearranged hr]; simp⟩
  | cons t l ih =>
    intro s h u ht
    obtain ⟨a1, b1, r1, e1, ht⟩ := next_inv ht
    simp only [Stmt.run, Option.some.injEq] at e1
    subst e1
    obtain ⟨h1, c1, k1⟩ := removeTrip_spec (inv_rearranged h r1) cid t
    obtain ⟨h2, c2, k2⟩ := ih _ h1 u ht
    refine ⟨h2, c2.trans (by rw [c1]; exact r1.colls), fun d x => ?_⟩
    rw [k2, k1, held_rearranged r1, List.mem_cons]
    grind

/-- Statements without constraints to violate succeed unless they fail. -/
theorem never_violated {mf : Bool} {s : Duck} {l : List Stmt} {o : Option Duck} (h : Transacts mf s l o) :
    (∀ st ∈ l, ∀ t, st.run t ≠ none) → o = none → mf = true := by
  induction h with
  | commit => intro _ h; cases h
  | next _ _ _ ih => intro hl; exact ih fun st hst => hl st (List.mem_cons_of_mem _ hst)
  | violated _ hv => intro hl _; exact absurd hv (hl _ List.mem_cons_self _)
  | failed hm => intro _ _; exact hm

theorem referenced_perm {s t : Duck} (h : Duck.Inv s) (hr : Rearranged s t) (c : Str) :
    (idOf t.colls c).any (fun i => t.trips.any (fun r => r.coll == i)) = true ↔ ∃ p, world s c = some p ∧ ∃ x, p x := by
  rw [referenced_iff (inv_rearranged h hr), world_rearranged h hr]

/-- Outcome and effect of one operation. -/
theorem step_spec {mf : Bool} {s s' : Duck} {op : Op} {r : Res Unit} (h : Duck.Inv s) (hs : Step mf s op r s') :
    Duck.Inv s' ∧ world s' = applyEvent false (world s) (op, r) ∧ (DuckOutcome (world s) op r ∨ (mf = true ∧ r = .panic)) := by
  have gone : ∀ {t u : Duck} {x : Op}, Duck.Inv t → Rearranged t u → Duck.Inv u ∧ world u = applyEvent false (world t) (x, .panic) :=
    fun hi hr => ⟨inv_rearranged hi hr, world_rearranged hi hr⟩
  have key : ∀ (c : Str) (l : Nat → List Stmt), (∀ id, ∀ st ∈ l id, ∀ t, st.run t ≠ none) → op.target = c →
      (∀ w r, DuckOutcome w op r ↔ (w c ≠ none ∧ r = .ok ()) ∨ (w c = none ∧ r = .err (lit "Collection " ++ c ++ lit " not found."))) →
      (∀ t id u, Duck.Inv t → idOf t.colls c = some id → Transacts mf t (l id) (some u) →
        Duck.Inv u ∧ world u = apply false (world t) op) →
      withId mf s c l r s' →
      Duck.Inv s' ∧ world s' = applyEvent false (world s) (op, r) ∧ (DuckOutcome (world s) op r ∨ (mf = true ∧ r = .panic)) := by
    rintro c l hl _ ho ha (⟨hm, rfl, hr⟩ | ⟨t, hr, ht⟩)
    · obtain ⟨a, b⟩ := gone (x := op) h hr
      exact ⟨a, b, .inr ⟨hm, rfl⟩⟩
    · have hw := world_rearranged h hr
      have hi := inv_rearranged h hr
      rw [← hw, ho]
      cases hid : idOf t.colls c with
      | none =>
        rw [hid] at ht
        obtain ⟨rfl, hr'⟩ := ht
        exact ⟨inv_rearranged hi hr', world_rearranged hi hr', .inl (.inr ⟨by simp [world, hid], rfl⟩)⟩
      | some id =>
        rw [hid] at ht
        obtain ⟨o, ht, hu⟩ := ht
        cases o with
        | none =>
          obtain ⟨rfl, hr'⟩ := hu
          obtain ⟨a, b⟩ := gone (x := op) hi hr'
          exact ⟨a, b, .inr ⟨never_violated ht (hl id) rfl, rfl⟩⟩
        | some u =>
          obtain ⟨rfl, rfl⟩ := hu
          obtain ⟨a, b⟩ := ha t id _ hi hid ht
          exact ⟨a, b, .inl (.inl ⟨by simp [world, hid], rfl⟩)⟩
  cases op with
  | addCollection c =>
    obtain ⟨o, ht, hu⟩ := hs
    cases o with
    | none =>
      obtain ⟨rfl, hr⟩ := hu
      obtain ⟨a, b⟩ := gone (x := .addCollection c) h hr
      refine ⟨a, b, ?_⟩
      cases ht with
      | next _ _ hl =>
        cases hl with
        | failed hm => exact .inr ⟨hm, rfl⟩
      | violated hr' hv =>
        refine .inl (.inr ⟨?_, rfl⟩)
        rw [← world_rearranged h hr']
        simp only [Stmt.run, ite_eq_left_iff, reduceCtorEq, imp_false, Decidable.not_not] at hv
        obtain ⟨i, hi⟩ := Option.isSome_iff_exists.mp hv
        simp [world, hi]
      | failed hm => exact .inr ⟨hm, rfl⟩
    | some u =>
      obtain ⟨rfl, rfl⟩ := hu
      obtain ⟨t, v, hr, hv, hl⟩ := next_inv ht
      have hr2 := nil_inv hl
      have hi := inv_rearranged h hr
      simp only [Stmt.run, Option.ite_none_left_eq_some, Bool.not_eq_true, Option.isSome_eq_false_iff, Option.isNone_iff_eq_none, Option.some.injEq] at hv
      obtain ⟨hn, rfl⟩ := hv
      obtain ⟨h1, h2⟩ := world_addCollection hi hn
      have hw : world s c = none := by rw [← world_rearranged h hr]; simp [world, hn]
      refine ⟨inv_rearranged h1 hr2, ?_, .inl (.inl ⟨hw, rfl⟩)⟩
      rw [world_rearranged h1 hr2, h2, world_rearranged h hr]
      simp only [applyEvent, apply, hw]
  | removeCollection c =>
    obtain ⟨o, ht, hu⟩ := hs
    cases o with
    | none =>
      obtain ⟨rfl, hr⟩ := hu
      obtain ⟨a, b⟩ := gone (x := .removeCollection c) h hr
      refine ⟨a, b, ?_⟩
      cases ht with
      | next _ _ hl =>
        cases hl with
        | failed hm => exact .inr ⟨hm, rfl⟩
      | violated hr' hv =>
        simp only [Stmt.run, ite_eq_left_iff, reduceCtorEq, imp_false, Decidable.not_not] at hv
        exact .inl (.inl ⟨(referenced_perm h hr' c).mp hv, rfl⟩)
      | failed hm => exact .inr ⟨hm, rfl⟩
    | some u =>
      obtain ⟨rfl, rfl⟩ := hu
      obtain ⟨t, v, hr, hv, hl⟩ := next_inv ht
      have hr2 := nil_inv hl
      have hi := inv_rearranged h hr
      simp only [Stmt.run, Option.ite_none_left_eq_some, Option.some.injEq] at hv
      obtain ⟨hn, rfl⟩ := hv
      have hout : ¬ ∃ p, world s c = some p ∧ ∃ x, p x := fun hx => hn ((referenced_perm h hr c).mpr hx)
      have hdo : DuckOutcome (world s) (.removeCollection c) (.ok ()) := .inr ⟨hout, rfl⟩
      cases hid : idOf t.colls c with
      | none =>
        have e : t.colls.filter (fun r => decide (r.2 ≠ c)) = t.colls := by
          rw [List.filter_eq_self]
          rintro ⟨i, x⟩ hm
          simp only [decide_eq_true_eq]
          rintro rfl
          exact (hi.colls.idOf_none _).mp hid i hm
        rw [e] at hr2
        have hr3 := hr.trans hr2
        refine ⟨inv_rearranged h hr3, ?_, .inl hdo⟩
        rw [world_rearranged h hr3]
        simp only [applyEvent, apply]
        funext d
        by_cases e : d = c
        · subst e; rw [World.set_same, ← world_rearranged h hr]; simp [world, hid]
        · rw [World.set_other _ _ e]
      | some i =>
        have hr' : ∀ r ∈ t.trips, r.coll ≠ i := by
          intro r hm he
          refine hn ?_
          rw [hid]
          exact List.any_eq_true.mpr ⟨r, hm, by simpa using he⟩
        obtain ⟨h1, h2⟩ := world_removeCollection hi hid hr'
        refine ⟨inv_rearranged h1 hr2, ?_, .inl hdo⟩
        rw [world_rearranged h1 hr2, h2, world_rearranged h hr]
        rfl
  | addTriples c ts =>
    refine key c _ ?_ rfl (fun w r => Iff.rfl) ?_ hs
    · intro id st hst t
      simp only [List.mem_flatMap, addStmts, List.mem_cons, List.not_mem_nil, or_false] at hst
      obtain ⟨_, _, hst⟩ := hst
      rcases hst with rfl | rfl | rfl | rfl <;> simp [Stmt.run]
    · intro t id u hi hid ht
      obtain ⟨h1, c1, k1⟩ := adds_spec ts.toList t hi ((hi.colls.idOf_eq _ _).mp hid) u ht
      refine ⟨h1, ?_⟩
      have hw : world t c = some (held t id) := by simp [world, hid]
      simp only [apply, hw]
      refine world_update' hi h1 c1 hid _ ?_ ?_
      · intro d x hne; rw [k1]; simp [hne]
      · intro x; rw [k1]; simp [BSet.mem_def]
  | removeTriples c ts =>
    refine key c _ ?_ rfl (fun w r => Iff.rfl) ?_ hs
    · intro id st hst t
      simp only [List.mem_map] at hst
      obtain ⟨_, _, rfl⟩ := hst
      simp [Stmt.run]
    · intro t id u hi hid ht
      obtain ⟨h1, c1, k1⟩ := removes_spec ts.toList t hi u ht
      refine ⟨h1, ?_⟩
      have hw : world t c = some (held t id) := by simp [world, hid]
      simp only [apply, hw]
      refine world_update' hi h1 c1 hid _ ?_ ?_
      · intro d x hne; rw [k1]; simp [hne]
      · intro x; rw [k1]; simp [BSet.mem_def]

theorem history_spec {mf : Bool} {s s' : Duck} {l : List Event} (hh : History mf s l s') : Duck.Inv s →
    Duck.Inv s' ∧ world s' = l.foldl (applyEvent false) (world s) := by
  induction hh with
  | nil => intro h; exact ⟨h, rfl⟩
  | cons hs _ ih =>
    intro h
    obtain ⟨h1, h2, _⟩ := step_spec h hs
    obtain ⟨h3, h4⟩ := ih h1
    exact ⟨h3, by rw [h4, h2]; rfl⟩

theorem history_new {mf : Bool} {s : Duck} {l : List Event} (hh : History mf Duck.new l s) : Duck.Inv s ∧ world s = worldAfter false l := by
  obtain ⟨a, b⟩ := history_spec hh inv_new
  exact ⟨a, by rw [b, world_new]; rfl⟩

theorem outcome_det {w : World} {op : Op} {r r' : Res Unit} (h : DuckOutcome w op r) (h' : DuckOutcome w op r') : r = r' := by
  cases op <;> simp only [DuckOutcome] at h h' <;> rcases h with ⟨a, rfl⟩ | ⟨a, rfl⟩ <;> rcases h' with ⟨b, rfl⟩ | ⟨b, rfl⟩ <;>
    first | rfl | exact absurd a b | exact absurd b a

theorem exec_outcome {s : Duck} (h : Duck.Inv s) (op : Op) : DuckOutcome (world s) op (exec Duck.ops s op).1 := by
  have ho := (exec_spec h op).2.2
  have hsome : ∀ c, (world s c).isSome = true ↔ world s c ≠ none := fun c => Option.isSome_iff_ne_none
  cases op with
  | addCollection c =>
    simp only [DuckOutcome]
    by_cases e : world s c = none
    · exact .inl ⟨e, by simpa [e] using ho⟩
    · exact .inr ⟨e, by simpa [(hsome c).mpr e] using ho⟩
  | removeCollection c =>
    have hr := referenced_iff h c
    simp only [DuckOutcome]
    by_cases e : ∃ p, world s c = some p ∧ ∃ t, p t
    · exact .inl ⟨e, by simpa only [hr.mpr e, if_true] using ho⟩
    · exact .inr ⟨e, by
        have : ¬ _ := fun x => e (hr.mp x)
        simpa only [this, if_false] using ho⟩
  | addTriples c ts =>
    simp only [DuckOutcome]
    by_cases e : world s c = none
    · exact .inr ⟨e, by simpa [e] using ho⟩
    · exact .inl ⟨e, by simpa [(hsome c).mpr e] using ho⟩
  | removeTriples c ts =>
    simp only [DuckOutcome]
    by_cases e : world s c = none
    · exact .inr ⟨e, by simpa [e] using ho⟩
    · exact .inl ⟨e, by simpa [(hsome c).mpr e] using ho⟩

/-! ## The simple model is one of the possibilities -/

theorem transacts_adds (cid : Nat) (l : List Trip) : ∀ s : Duck, Transacts false s (l.flatMap (addStmts cid)) (some (l.foldl (addOne cid) s)) := by
  induction l with
  | nil => intro s; exact .commit (.refl s)
  | cons t l ih =>
    intro s
    simp only [List.flatMap_cons, addStmts, List.cons_append, List.nil_append, List.foldl_cons]
    exact .next (.refl _) rfl (.next (.refl _) rfl (.next (.refl _) rfl (.next (.refl _) rfl (ih _))))

theorem transacts_removes (cid : Nat) (l : List Trip) : ∀ s : Duck,
    Transacts false s (l.map (.deleteTrip cid)) (some (l.foldl (fun s t => removeTrip s cid t) s)) := by
  induction l with
  | nil => intro s; exact .commit (.refl s)
  | cons t l ih => intro s; exact .next (.refl _) rfl (ih _)

theorem step_exec (s : Duck) (op : Op) (hi : Duck.Inv s) : Step false s op (exec Duck.ops s op).1 (exec Duck.ops s op).2 := by
  cases op with
  | addCollection c =>
    simp only [Step, exec, Duck.ops, addCollection]
    cases h : idOf s.colls c with
    | some i => exact ⟨none, .violated (.refl s) (by simp [Stmt.run, h]), rfl, .refl s⟩
    | none => exact ⟨some _, .next (.refl s) (by simp only [Stmt.run, h]; rfl) (.commit (.refl _)), rfl, rfl⟩
  | removeCollection c =>
    simp only [Step, exec, Duck.ops, removeCollection]
    cases h : idOf s.colls c with
    | none =>
      refine ⟨some s, .next (t := s) (u := s) (.refl s) ?_ (.commit (.refl _)), rfl, rfl⟩
      have e : s.colls.filter (fun r => decide (r.2 ≠ c)) = s.colls := by
        rw [List.filter_eq_self]
        rintro ⟨i, x⟩ hm
        simp only [decide_eq_true_eq]
        rintro rfl
        exact (hi.colls.idOf_none _).mp h i hm
      simp only [Stmt.run, h, e]; rfl
    | some i =>
      by_cases hr : s.trips.any (fun r => r.coll == i) = true
      · simp only [hr, if_true]
        exact ⟨none, .violated (.refl s) (by simp only [Stmt.run, h, Option.any_some, hr, if_true]), rfl, .refl s⟩
      · simp only [hr]
        exact ⟨some _, .next (.refl s) (by simp only [Stmt.run, h, Option.any_some, hr]; rfl) (.commit (.refl _)), rfl, rfl⟩
  | addTriples c ts =>
    refine .inr ⟨s, .refl s, ?_⟩
    simp only [exec, Duck.ops, addTriples, getCollectionId]
    cases h : idOf s.colls c with
    | none => exact ⟨rfl, .refl s⟩
    | some i => exact ⟨some _, transacts_adds i ts.toList s, rfl, rfl⟩
  | removeTriples c ts =>
    refine .inr ⟨s, .refl s, ?_⟩
    simp only [exec, Duck.ops, removeTriples, getCollectionId]
    cases h : idOf s.colls c with
    | none => exact ⟨rfl, .refl s⟩
    | some i => exact ⟨some _, transacts_removes i ts.toList s, rfl, rfl⟩

theorem history_exec (l : List Op) : ∀ s, Duck.Inv s → History false s (runOps Duck.ops s l).1 (runOps Duck.ops s l).2 := by
  induction l with
  | nil => intro s _; exact .nil
  | cons op l ih => intro s h; exact .cons (step_exec s op h) (ih _ (exec_spec h op).1)

end DuckSql
end Verif
