import Verif.Proofs.Store
import Verif.Model.TripsDuckDB
/-!
# The DuckDB store refines the specification
-/
namespace Verif
namespace Duck
open Spec

/-- A dictionary table: ids and texts unique, ids below the sequence. -/
structure Dict (rows : List (Nat × Str)) (seq : Nat) : Prop where
  uid : ∀ i x y, (i, x) ∈ rows → (i, y) ∈ rows → x = y
  utext : ∀ i j x, (i, x) ∈ rows → (j, x) ∈ rows → i = j
  below : ∀ i x, (i, x) ∈ rows → i < seq
  names : (rows.map Prod.snd).Nodup

structure Inv (s : Duck) : Prop where
  parts : Dict s.parts s.seq
  colls : Dict s.colls s.seq
  rcoll : ∀ r ∈ s.trips, ∃ c, (r.coll, c) ∈ s.colls
  rows : ∀ r ∈ s.trips, ∃ f se t fx sx tx, r.fst = some f ∧ r.snd = some se ∧ r.thd = some t ∧
    (f, fx) ∈ s.parts ∧ (se, sx) ∈ s.parts ∧ (t, tx) ∈ s.parts

theorem Dict.nil (n : Nat) : Dict [] n := ⟨by simp, by simp, by simp, by simp⟩

theorem inv_new : Inv new := ⟨Dict.nil _, Dict.nil _, by simp [new], by simp [new]⟩

theorem Dict.idOf_eq {rows : List (Nat × Str)} {n : Nat} (h : Dict rows n) (x : Str) (i : Nat) :
    idOf rows x = some i ↔ (i, x) ∈ rows := by
  simp only [idOf, Option.map_eq_some_iff]
  constructor
  · rintro ⟨⟨j, y⟩, hf, rfl⟩
    have h1 := List.mem_of_find?_eq_some hf
    have h2 := List.find?_some hf
    simp only [decide_eq_true_eq] at h2
    subst h2; exact h1
  · intro hm
    cases hf : rows.find? (fun r => decide (r.2 = x)) with
    | none =>
      rw [List.find?_eq_none] at hf
      have := hf _ hm; simp at this
    | some r =>
      obtain ⟨j, y⟩ := r
      have h1 := List.mem_of_find?_eq_some hf
      have h2 := List.find?_some hf
      simp only [decide_eq_true_eq] at h2
      subst h2
      exact ⟨_, rfl, h.utext _ _ _ h1 hm⟩

theorem Dict.idOf_none {rows : List (Nat × Str)} {n : Nat} (h : Dict rows n) (x : Str) :
    idOf rows x = none ↔ ∀ i, ¬ (i, x) ∈ rows := by
  cases hi : idOf rows x with
  | none =>
    simp only [true_iff]
    intro i hm; rw [← h.idOf_eq, hi] at hm; cases hm
  | some i =>
    simp only [reduceCtorEq, false_iff]
    intro hx; exact hx i ((h.idOf_eq x i).mp hi)

theorem Dict.textOf_eq {rows : List (Nat × Str)} {n : Nat} (h : Dict rows n) (x : Str) (i : Nat) :
    textOf rows (some i) = some x ↔ (i, x) ∈ rows := by
  simp only [textOf, Option.map_eq_some_iff]
  constructor
  · rintro ⟨⟨j, y⟩, hf, rfl⟩
    have h1 := List.mem_of_find?_eq_some hf
    have h2 := List.find?_some hf
    simp only [decide_eq_true_eq] at h2
    subst h2; exact h1
  · intro hm
    cases hf : rows.find? (fun r => decide (r.1 = i)) with
    | none =>
      rw [List.find?_eq_none] at hf
      have := hf _ hm; simp at this
    | some r =>
      obtain ⟨j, y⟩ := r
      have h1 := List.mem_of_find?_eq_some hf
      have h2 := List.find?_some hf
      simp only [decide_eq_true_eq] at h2
      subst h2
      exact ⟨_, rfl, h.uid _ _ _ h1 hm⟩

theorem Dict.mono {rows : List (Nat × Str)} {n m : Nat} (h : Dict rows n) (hm : n ≤ m) : Dict rows m :=
  { h with below := fun i x hx => Nat.lt_of_lt_of_le (h.below i x hx) hm }

theorem Dict.snoc {rows : List (Nat × Str)} {n : Nat} (h : Dict rows n) {x : Str} (hx : ∀ i, ¬ (i, x) ∈ rows) :
    Dict (rows ++ [(n, x)]) (n + 1) where
  uid i a b ha hb := by
    simp only [List.mem_append, List.mem_singleton, Prod.mk.injEq] at ha hb
    rcases ha with ha | ⟨rfl, rfl⟩ <;> rcases hb with hb | ⟨hb1, hb2⟩
    · exact h.uid i a b ha hb
    · subst hb1; have := h.below _ _ ha; omega
    · have := h.below _ _ hb; omega
    · exact hb2.symm
  utext i j a ha hb := by
    simp only [List.mem_append, List.mem_singleton, Prod.mk.injEq] at ha hb
    rcases ha with ha | ⟨rfl, rfl⟩ <;> rcases hb with hb | ⟨hb1, hb2⟩
    · exact h.utext i j a ha hb
    · subst hb2; exact absurd ha (hx i)
    · exact absurd hb (hx j)
    · exact hb1.symm
  below i a ha := by
    simp only [List.mem_append, List.mem_singleton, Prod.mk.injEq] at ha
    rcases ha with ha | ⟨rfl, rfl⟩
    · have := h.below i a ha; omega
    · omega
  names := by
    rw [List.map_append, List.nodup_append]
    refine ⟨h.names, by simp, ?_⟩
    intro a ha b hb
    simp only [List.map_cons, List.map_nil, List.mem_singleton] at hb
    subst hb
    rw [List.mem_map] at ha
    obtain ⟨⟨i, y⟩, hm, rfl⟩ := ha
    rintro rfl; exact hx i hm

/-- The row says that the triple is in the collection with the id. -/
def Denotes (parts : List (Nat × Str)) (r : TripRow) (t : Trip) : Prop :=
  ∃ f se th, r.fst = some f ∧ r.snd = some se ∧ r.thd = some th ∧
    (f, t.fst) ∈ parts ∧ (se, t.snd) ∈ parts ∧ (th, t.thd) ∈ parts

/-- The triples of the collection with the id. -/
def held (s : Duck) (cid : Nat) (t : Trip) : Prop := ∃ r ∈ s.trips, r.coll = cid ∧ Denotes s.parts r t

/-- The world a DuckDB store stands for. -/
def world (s : Duck) : World := fun c => (idOf s.colls c).map (held s)

theorem world_new : world new = emptyWorld := by
  funext c; simp [world, new, emptyWorld, idOf]

theorem triplesLoop_ok {s : Duck} (h : Inv s) (c : Str) (l : List TripRow) (hl : ∀ r ∈ l, r ∈ s.trips) :
    ∀ acc : BSet Trip, ∃ ts, triplesLoop s c l acc = .ok ts ∧
      ∀ t, t ∈ ts ↔ t ∈ acc ∨ ∃ r ∈ l, (r.coll, c) ∈ s.colls ∧ Denotes s.parts r t := by
  induction l with
  | nil => intro acc; exact ⟨acc, rfl, by simp⟩
  | cons r l ih =>
    intro acc
    have ih := ih (fun r' hr' => hl r' (List.mem_cons_of_mem _ hr'))
    obtain ⟨f, se, t, fx, sx, tx, e1, e2, e3, m1, m2, m3⟩ := h.rows r (hl r List.mem_cons_self)
    unfold triplesLoop
    by_cases hc : textOf s.colls (some r.coll) = some c
    · rw [if_pos hc, e1, e2, e3, (h.parts.textOf_eq _ _).mpr m1, (h.parts.textOf_eq _ _).mpr m2,
        (h.parts.textOf_eq _ _).mpr m3]
      obtain ⟨ts, ht, hts⟩ := ih (acc.insert ⟨fx, sx, tx⟩)
      refine ⟨ts, ht, fun x => ?_⟩
      rw [hts, BSet.mem_insert]
      have hc' := (h.colls.textOf_eq _ _).mp hc
      constructor
      · rintro ((rfl | hx) | ⟨r', hr', hx⟩)
        · exact .inr ⟨r, List.mem_cons_self, hc', f, se, t, e1, e2, e3, m1, m2, m3⟩
        · exact .inl hx
        · exact .inr ⟨r', List.mem_cons_of_mem _ hr', hx⟩
      · rintro (hx | ⟨r', hr', hx, hd⟩)
        · exact .inl (.inr hx)
        · rw [List.mem_cons] at hr'
          rcases hr' with rfl | hr'
          · obtain ⟨f', se', t', e1', e2', e3', m1', m2', m3'⟩ := hd
            rw [e1] at e1'; rw [e2] at e2'; rw [e3] at e3'
            cases e1'; cases e2'; cases e3'
            left; left
            obtain ⟨a, b, d⟩ := x
            rw [h.parts.uid _ _ _ m1 m1', h.parts.uid _ _ _ m2 m2', h.parts.uid _ _ _ m3 m3']
          · exact .inr ⟨r', hr', hx, hd⟩
    · rw [if_neg hc]
      obtain ⟨ts, ht, hts⟩ := ih acc
      refine ⟨ts, ht, fun x => ?_⟩
      rw [hts]
      constructor
      · rintro (hx | ⟨r', hr', hx⟩)
        · exact .inl hx
        · exact .inr ⟨r', List.mem_cons_of_mem _ hr', hx⟩
      · rintro (hx | ⟨r', hr', hx, hd⟩)
        · exact .inl hx
        · rw [List.mem_cons] at hr'
          rcases hr' with rfl | hr'
          · exact absurd ((h.colls.textOf_eq _ _).mpr hx) hc
          · exact .inr ⟨r', hr', hx, hd⟩

theorem triples_spec {s : Duck} (h : Inv s) (c : Str) :
    ∃ ts, triples s c = .ok ts ∧ ∀ t, t ∈ ts ↔ ∃ p, world s c = some p ∧ p t := by
  obtain ⟨ts, ht, hts⟩ := triplesLoop_ok h c s.trips (fun _ h => h) ∅
  refine ⟨ts, ht, fun t => ?_⟩
  rw [hts]
  simp only [world, Option.map_eq_some_iff]
  constructor
  · rintro (hx | ⟨r, hr, hc, hd⟩)
    · exact absurd hx (BSet.not_mem_empty t)
    · exact ⟨_, ⟨r.coll, (h.colls.idOf_eq _ _).mpr hc, rfl⟩, r, hr, rfl, hd⟩
  · rintro ⟨_, ⟨i, hi, rfl⟩, r, hr, rfl, hd⟩
    exact .inr ⟨r, hr, (h.colls.idOf_eq _ _).mp hi, hd⟩

theorem agrees {s : Duck} (h : Inv s) : Agrees ops s (world s) := by
  refine ⟨⟨_, rfl, h.colls.names, fun c => ?_⟩, ?_⟩
  · simp only [world, Option.isSome_map, List.mem_map]
    constructor
    · rintro ⟨⟨i, y⟩, hm, rfl⟩
      rw [(h.colls.idOf_eq _ _).mpr hm]; rfl
    · intro hi
      obtain ⟨i, hi⟩ := Option.isSome_iff_exists.mp hi
      exact ⟨(i, c), (h.colls.idOf_eq _ _).mp hi, rfl⟩
  · intro c p hp
    obtain ⟨ts, ht, hts⟩ := triples_spec h c
    refine ⟨ts, ht, fun t => ?_⟩
    rw [hts]
    constructor
    · rintro ⟨q, hq, hqt⟩; rw [hp] at hq; cases hq; exact hqt
    · intro hpt; exact ⟨p, hp, hpt⟩

/-! ## single operations -/

theorem world_addCollection {s : Duck} (h : Inv s) {c : Str} (hc : idOf s.colls c = none) :
    Inv { s with seq := s.seq + 1, colls := s.colls ++ [(s.seq, c)] } ∧
    world { s with seq := s.seq + 1, colls := s.colls ++ [(s.seq, c)] } = (world s).set c (some fun _ => False) := by
  have hcn := (h.colls.idOf_none c).mp hc
  have hd := h.colls.snoc hcn
  refine ⟨⟨h.parts.mono (Nat.le_succ _), hd, ?_, h.rows⟩, ?_⟩
  · intro r hr
    obtain ⟨x, hx⟩ := h.rcoll r hr
    exact ⟨x, List.mem_append_left _ hx⟩
  · funext d
    by_cases e : d = c
    · subst e
      rw [World.set_same]
      have : idOf (s.colls ++ [(s.seq, d)]) d = some s.seq := (hd.idOf_eq _ _).mpr (by simp)
      simp only [world, this, Option.map_some, Option.some.injEq]
      funext t
      apply propext
      simp only [iff_false]
      rintro ⟨r, hr, hrc, _⟩
      obtain ⟨x, hx⟩ := h.rcoll r hr
      have := h.colls.below _ _ hx
      omega
    · rw [World.set_other _ _ e]
      have : idOf (s.colls ++ [(s.seq, c)]) d = idOf s.colls d := by
        cases hi : idOf s.colls d with
        | some i =>
          exact (hd.idOf_eq _ _).mpr (List.mem_append_left _ ((h.colls.idOf_eq _ _).mp hi))
        | none =>
          rw [hd.idOf_none]
          intro i hm
          simp only [List.mem_append, List.mem_singleton, Prod.mk.injEq] at hm
          rcases hm with hm | ⟨_, hm⟩
          · exact (h.colls.idOf_none d).mp hi i hm
          · exact e hm
      simp only [world, this]; rfl

theorem Dict.filter {rows : List (Nat × Str)} {n : Nat} (h : Dict rows n) (p : Nat × Str → Bool) : Dict (rows.filter p) n where
  uid i x y hx hy := h.uid i x y (List.mem_filter.mp hx).1 (List.mem_filter.mp hy).1
  utext i j x hx hy := h.utext i j x (List.mem_filter.mp hx).1 (List.mem_filter.mp hy).1
  below i x hx := h.below i x (List.mem_filter.mp hx).1
  names := h.names.sublist (List.filter_sublist.map _)

theorem world_removeCollection {s : Duck} (h : Inv s) {c : Str} {i : Nat} (hc : idOf s.colls c = some i)
    (hr : ∀ r ∈ s.trips, r.coll ≠ i) :
    Inv { s with colls := s.colls.filter (fun r => decide (r.2 ≠ c)) } ∧
    world { s with colls := s.colls.filter (fun r => decide (r.2 ≠ c)) } = (world s).set c none := by
  have hd := h.colls.filter (fun r => decide (r.2 ≠ c))
  have hi := (h.colls.idOf_eq _ _).mp hc
  refine ⟨⟨h.parts, hd, ?_, h.rows⟩, ?_⟩
  · intro r hrm
    obtain ⟨x, hx⟩ := h.rcoll r hrm
    refine ⟨x, List.mem_filter.mpr ⟨hx, ?_⟩⟩
    simp only [decide_eq_true_eq]
    rintro rfl
    exact hr r hrm (h.colls.utext _ _ _ hx hi)
  · funext d
    by_cases e : d = c
    · subst e
      rw [World.set_same]
      have : idOf (s.colls.filter (fun r => decide (r.2 ≠ d))) d = none := by
        rw [hd.idOf_none]; intro j hm
        have := (List.mem_filter.mp hm).2; simp at this
      simp only [world, this]; rfl
    · rw [World.set_other _ _ e]
      have : idOf (s.colls.filter (fun r => decide (r.2 ≠ c))) d = idOf s.colls d := by
        cases hi : idOf s.colls d with
        | some j =>
          exact (hd.idOf_eq _ _).mpr (List.mem_filter.mpr ⟨(h.colls.idOf_eq _ _).mp hi, by simpa using e⟩)
        | none =>
          rw [hd.idOf_none]
          intro j hm
          exact (h.colls.idOf_none d).mp hi j (List.mem_filter.mp hm).1
      simp only [world, this]; rfl

/-- Adding a part keeps what there is. -/
theorem addPart_spec {s : Duck} (h : Inv s) (x : Str) :
    Inv (addPart s x) ∧ (addPart s x).colls = s.colls ∧ (addPart s x).trips = s.trips ∧
    (∀ i y, (i, y) ∈ s.parts → (i, y) ∈ (addPart s x).parts) ∧ (∃ i, (i, x) ∈ (addPart s x).parts) := by
  unfold addPart
  cases hi : idOf s.parts x with
  | some i =>
    have hm := (h.parts.idOf_eq _ _).mp hi
    exact ⟨⟨h.parts.mono (Nat.le_succ _), h.colls.mono (Nat.le_succ _), h.rcoll, h.rows⟩, rfl, rfl,
      fun _ _ h => h, i, hm⟩
  | none =>
    have hn := (h.parts.idOf_none _).mp hi
    refine ⟨⟨h.parts.snoc hn, h.colls.mono (Nat.le_succ _), h.rcoll, ?_⟩, rfl, rfl,
      fun _ _ h => List.mem_append_left _ h, s.seq, by simp⟩
    intro r hr
    obtain ⟨f, se, t, fx, sx, tx, e1, e2, e3, m1, m2, m3⟩ := h.rows r hr
    exact ⟨f, se, t, fx, sx, tx, e1, e2, e3, List.mem_append_left _ m1, List.mem_append_left _ m2,
      List.mem_append_left _ m3⟩

/-- A row keeps its meaning when parts are added. -/
theorem denotes_mono {s s' : Duck} (h : Inv s) (h' : Inv s') (hp : ∀ i y, (i, y) ∈ s.parts → (i, y) ∈ s'.parts)
    {r : TripRow} (hr : r ∈ s.trips) (t : Trip) : Denotes s'.parts r t ↔ Denotes s.parts r t := by
  constructor
  · rintro ⟨f, se, th, e1, e2, e3, m1, m2, m3⟩
    obtain ⟨f', se', th', fx, sx, tx, e1', e2', e3', m1', m2', m3'⟩ := h.rows r hr
    rw [e1] at e1'; rw [e2] at e2'; rw [e3] at e3'
    cases e1'; cases e2'; cases e3'
    refine ⟨f, se, th, e1, e2, e3, ?_, ?_, ?_⟩
    · rw [h'.parts.uid _ _ _ m1 (hp _ _ m1')]; exact m1'
    · rw [h'.parts.uid _ _ _ m2 (hp _ _ m2')]; exact m2'
    · rw [h'.parts.uid _ _ _ m3 (hp _ _ m3')]; exact m3'
  · rintro ⟨f, se, th, e1, e2, e3, m1, m2, m3⟩
    exact ⟨f, se, th, e1, e2, e3, hp _ _ m1, hp _ _ m2, hp _ _ m3⟩

theorem addOne_spec {s : Duck} (h : Inv s) {cid : Nat} {c : Str} (hc : (cid, c) ∈ s.colls) (t : Trip) :
    Inv (addOne cid s t) ∧ (addOne cid s t).colls = s.colls ∧
    ∀ d x, held (addOne cid s t) d x ↔ held s d x ∨ (d = cid ∧ x = t) := by
  obtain ⟨i1, c1, t1, p1, k1, q1⟩ := addPart_spec h t.fst
  obtain ⟨i2, c2, t2, p2, k2, q2⟩ := addPart_spec i1 t.snd
  obtain ⟨i3, c3, t3, p3, k3, q3⟩ := addPart_spec i2 t.thd
  unfold addOne
  generalize hs' : addPart (addPart (addPart s t.fst) t.snd) t.thd = s' at *
  have hp : ∀ i y, (i, y) ∈ s.parts → (i, y) ∈ s'.parts := fun i y hy => p3 _ _ (p2 _ _ (p1 _ _ hy))
  have ht : s'.trips = s.trips := t3.trans (t2.trans t1)
  have hcol : s'.colls = s.colls := c3.trans (c2.trans c1)
  have q1' := p3 _ _ (p2 _ _ q1)
  have q2' := p3 _ _ q2
  have e1 := (i3.parts.idOf_eq _ _).mpr q1'
  have e2 := (i3.parts.idOf_eq _ _).mpr q2'
  have e3 := (i3.parts.idOf_eq _ _).mpr q3
  simp only [addTrip, e1, e2, e3]
  refine ⟨⟨i3.parts.mono (Nat.le_succ _), i3.colls.mono (Nat.le_succ _), ?_, ?_⟩, hcol, ?_⟩
  · intro r hr
    simp only [List.mem_append, List.mem_singleton] at hr
    rcases hr with hr | rfl
    · exact i3.rcoll r hr
    · exact ⟨c, by dsimp only; rw [hcol]; exact hc⟩
  · intro r hr
    simp only [List.mem_append, List.mem_singleton] at hr
    rcases hr with hr | rfl
    · exact i3.rows r hr
    · exact ⟨_, _, _, _, _, _, rfl, rfl, rfl, q1', q2', q3⟩
  · intro d x
    simp only [held, List.mem_append, List.mem_singleton]
    constructor
    · rintro ⟨r, hr | rfl, hrc, hd⟩
      · rw [ht] at hr
        exact .inl ⟨r, hr, hrc, (denotes_mono h i3 hp hr x).mp hd⟩
      · obtain ⟨f, se, th, e1', e2', e3', m1, m2, m3⟩ := hd
        cases e1'; cases e2'; cases e3'
        refine .inr ⟨hrc.symm, ?_⟩
        obtain ⟨a, b, g⟩ := x
        obtain ⟨a', b', g'⟩ := t
        rw [Trip.mk.injEq]
        exact ⟨i3.parts.uid _ _ _ m1 q1', i3.parts.uid _ _ _ m2 q2', i3.parts.uid _ _ _ m3 q3⟩
    · rintro (⟨r, hr, hrc, hd⟩ | ⟨rfl, rfl⟩)
      · exact ⟨r, .inl (by rw [ht]; exact hr), hrc, (denotes_mono h i3 hp hr x).mpr hd⟩
      · exact ⟨_, .inr rfl, rfl, _, _, _, rfl, rfl, rfl, q1', q2', q3⟩

theorem addAll_spec {cid : Nat} {c : Str} (l : List Trip) : ∀ s : Duck, Inv s → (cid, c) ∈ s.colls →
    Inv (l.foldl (addOne cid) s) ∧ (l.foldl (addOne cid) s).colls = s.colls ∧
    ∀ d x, held (l.foldl (addOne cid) s) d x ↔ held s d x ∨ (d = cid ∧ x ∈ l) := by
  induction l with
  | nil => intro s h _; exact ⟨h, rfl, by simp⟩
  | cons t l ih =>
    intro s h hc
    obtain ⟨h1, c1, k1⟩ := addOne_spec h hc t
    obtain ⟨h2, c2, k2⟩ := ih _ h1 (by rw [c1]; exact hc)
    refine ⟨h2, c2.trans c1, ?_⟩
    intro d x
    simp only [List.foldl_cons]
    rw [k2, k1, List.mem_cons]
    grind

theorem sqlEq_iff {a b : Option Nat} : sqlEq a b = true ↔ ∃ i, a = some i ∧ b = some i := by
  cases a <;> cases b <;> simp [sqlEq]
  exact eq_comm

theorem removeTrip_spec {s : Duck} (h : Inv s) (cid : Nat) (t : Trip) :
    Inv (removeTrip s cid t) ∧ (removeTrip s cid t).colls = s.colls ∧
    ∀ d x, held (removeTrip s cid t) d x ↔ held s d x ∧ ¬ (d = cid ∧ x = t) := by
  refine ⟨⟨h.parts, h.colls, fun r hr => h.rcoll r (List.mem_filter.mp hr).1,
    fun r hr => h.rows r (List.mem_filter.mp hr).1⟩, rfl, ?_⟩
  have key : ∀ r ∈ s.trips, (r.coll == cid && sqlEq r.fst (idOf s.parts t.fst) && sqlEq r.snd (idOf s.parts t.snd) &&
        sqlEq r.thd (idOf s.parts t.thd)) = true ↔ r.coll = cid ∧ Denotes s.parts r t := by
    intro r hr
    simp only [Bool.and_eq_true, beq_iff_eq, sqlEq_iff, h.parts.idOf_eq]
    constructor
    · rintro ⟨⟨⟨hc, i, e1, m1⟩, j, e2, m2⟩, k, e3, m3⟩
      exact ⟨hc, i, j, k, e1, e2, e3, m1, m2, m3⟩
    · rintro ⟨hc, i, j, k, e1, e2, e3, m1, m2, m3⟩
      exact ⟨⟨⟨hc, i, e1, m1⟩, j, e2, m2⟩, k, e3, m3⟩
  have func : ∀ r x y, Denotes s.parts r x → Denotes s.parts r y → x = y := by
    rintro r ⟨a, b, c⟩ ⟨a', b', c'⟩ ⟨i, j, k, e1, e2, e3, m1, m2, m3⟩ ⟨i', j', k', e1', e2', e3', m1', m2', m3'⟩
    rw [e1] at e1'; rw [e2] at e2'; rw [e3] at e3'
    cases e1'; cases e2'; cases e3'
    rw [Trip.mk.injEq]
    exact ⟨h.parts.uid _ _ _ m1 m1', h.parts.uid _ _ _ m2 m2', h.parts.uid _ _ _ m3 m3'⟩
  intro d x
  simp only [held, removeTrip, List.mem_filter, Bool.not_eq_true']
  constructor
  · rintro ⟨r, ⟨hr, hb⟩, hc, hd⟩
    refine ⟨⟨r, hr, hc, hd⟩, ?_⟩
    rintro ⟨rfl, rfl⟩
    have := (key r hr).mpr ⟨hc, hd⟩
    rw [hb] at this; cases this
  · rintro ⟨⟨r, hr, hc, hd⟩, hne⟩
    refine ⟨r, ⟨hr, ?_⟩, hc, hd⟩
    apply Bool.eq_false_iff.mpr
    intro hb
    obtain ⟨hc', hd'⟩ := (key r hr).mp hb
    exact hne ⟨hc.symm.trans hc', func r x t hd hd'⟩

theorem removeAll_spec {cid : Nat} (l : List Trip) : ∀ s : Duck, Inv s →
    Inv (l.foldl (fun s t => removeTrip s cid t) s) ∧ (l.foldl (fun s t => removeTrip s cid t) s).colls = s.colls ∧
    ∀ d x, held (l.foldl (fun s t => removeTrip s cid t) s) d x ↔ held s d x ∧ ¬ (d = cid ∧ x ∈ l) := by
  induction l with
  | nil => intro s h; exact ⟨h, rfl, by simp⟩
  | cons t l ih =>
    intro s h
    obtain ⟨h1, c1, k1⟩ := removeTrip_spec h cid t
    obtain ⟨h2, c2, k2⟩ := ih _ h1
    refine ⟨h2, c2.trans c1, ?_⟩
    intro d x
    simp only [List.foldl_cons]
    rw [k2, k1, List.mem_cons]
    grind

theorem world_update {s s' : Duck} (h : Inv s) (hc : s'.colls = s.colls) {c : Str} {cid : Nat}
    (hi : idOf s.colls c = some cid) (f : Trip → Prop)
    (hother : ∀ d x, d ≠ cid → (held s' d x ↔ held s d x)) (hthis : ∀ x, held s' cid x ↔ f x) :
    world s' = (world s).set c (some f) := by
  funext d
  by_cases e : d = c
  · subst e
    simp only [world, hc, hi, World.set_same, Option.map_some, Option.some.injEq]
    funext x; exact propext (hthis x)
  · rw [World.set_other _ _ e]
    simp only [world, hc]
    cases hd : idOf s.colls d with
    | none => rfl
    | some j =>
      simp only [Option.map_some, Option.some.injEq]
      funext x
      refine propext (hother j x ?_)
      rintro rfl
      exact e (h.colls.uid _ _ _ ((h.colls.idOf_eq _ _).mp hd) ((h.colls.idOf_eq _ _).mp hi))

/-- Outcome and effect of one operation. -/
theorem exec_spec {s : Duck} (h : Inv s) (op : Op) :
    Inv (exec ops s op).2 ∧ world (exec ops s op).2 = applyEvent false (world s) (op, (exec ops s op).1) ∧
    ((exec ops s op).1 = match op with
      | .addCollection c => if (world s c).isSome then .panic else .ok ()
      | .removeCollection c => if (idOf s.colls c).any (fun i => s.trips.any (fun r => r.coll == i)) then .panic else .ok ()
      | .addTriples c _ | .removeTriples c _ =>
        if (world s c).isSome then .ok () else .err (lit "Collection " ++ c ++ lit " not found.")) := by
  cases op with
  | addCollection c =>
    simp only [exec, ops, addCollection]
    cases hi : idOf s.colls c with
    | some i => exact ⟨h, rfl, by simp [world, hi]⟩
    | none =>
      obtain ⟨h1, h2⟩ := world_addCollection h hi
      have hw : world s c = none := by simp [world, hi]
      refine ⟨h1, ?_, by simp [world, hi]⟩
      simp only [applyEvent, apply, hw]; exact h2
  | removeCollection c =>
    simp only [exec, ops, removeCollection]
    cases hi : idOf s.colls c with
    | none =>
      refine ⟨h, ?_, by simp⟩
      simp only [applyEvent, apply]
      have hw : world s c = none := by simp [world, hi]
      funext d
      by_cases e : d = c
      · subst e; rw [World.set_same, hw]
      · rw [World.set_other _ _ e]
    | some i =>
      simp only [Option.any_some]
      by_cases hr : s.trips.any (fun r => r.coll == i) = true
      · simp only [hr, if_true]; exact ⟨h, rfl, trivial⟩
      · simp only [hr]
        have hr' : ∀ r ∈ s.trips, r.coll ≠ i := by
          intro r hm he; exact hr (List.any_eq_true.mpr ⟨r, hm, by simpa using he⟩)
        obtain ⟨h1, h2⟩ := world_removeCollection h hi hr'
        exact ⟨h1, h2, rfl⟩
  | addTriples c ts =>
    simp only [exec, ops, addTriples, getCollectionId]
    cases hi : idOf s.colls c with
    | none => exact ⟨h, rfl, by simp [world, hi]⟩
    | some cid =>
      have hw : world s c = some (held s cid) := by simp [world, hi]
      obtain ⟨h1, h2, h3⟩ := addAll_spec ts.toList s h ((h.colls.idOf_eq _ _).mp hi)
      refine ⟨h1, ?_, by simp [hw]⟩
      simp only [applyEvent, apply, hw]
      refine world_update h h2 hi _ ?_ ?_
      · intro d x hne; rw [h3]; simp [hne]
      · intro x; rw [h3]; simp [BSet.mem_def]
  | removeTriples c ts =>
    simp only [exec, ops, removeTriples, getCollectionId]
    cases hi : idOf s.colls c with
    | none => exact ⟨h, rfl, by simp [world, hi]⟩
    | some cid =>
      have hw : world s c = some (held s cid) := by simp [world, hi]
      obtain ⟨h1, h2, h3⟩ := removeAll_spec (cid := cid) ts.toList s h
      refine ⟨h1, ?_, by simp [hw]⟩
      simp only [applyEvent, apply, hw]
      refine world_update h h2 hi _ ?_ ?_
      · intro d x hne; rw [h3]; simp [hne]
      · intro x; rw [h3]; simp [BSet.mem_def]

/-- A collection that holds triples is referenced, and conversely. -/
theorem referenced_iff {s : Duck} (h : Inv s) (c : Str) :
    (idOf s.colls c).any (fun i => s.trips.any (fun r => r.coll == i)) = true ↔ ∃ p, world s c = some p ∧ ∃ t, p t := by
  simp only [world]
  cases hi : idOf s.colls c with
  | none => simp
  | some i =>
    simp only [Option.any_some, Option.map_some, Option.some.injEq, exists_eq_left', List.any_eq_true, beq_iff_eq]
    constructor
    · rintro ⟨r, hr, rfl⟩
      obtain ⟨f, se, t, fx, sx, tx, e1, e2, e3, m1, m2, m3⟩ := h.rows r hr
      exact ⟨⟨fx, sx, tx⟩, r, hr, rfl, f, se, t, e1, e2, e3, m1, m2, m3⟩
    · rintro ⟨t, r, hr, hc, _⟩
      exact ⟨r, hr, hc⟩

theorem rel_runOps (l : List Op) :
    Inv (runOps ops new l).2 ∧ world (runOps ops new l).2 = worldAfter false (runOps ops new l).1 :=
  runOps_refines ops false (fun s w => Inv s ∧ world s = w) (fun _ => True)
    (fun s w op _ ⟨hg, hw⟩ => ⟨(exec_spec hg op).1, by subst hw; exact (exec_spec hg op).2.1⟩)
    l (fun _ _ => trivial) new emptyWorld ⟨inv_new, world_new⟩

end Duck
end Verif
