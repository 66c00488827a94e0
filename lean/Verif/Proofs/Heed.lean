import Verif.Proofs.Store
import Verif.Proofs.HeedKeys
import Verif.Spec.Heed
/-!
# The LMDB store refines the specification

`Inv s Q`: the representation invariant, where `Q c f s t` says that the identifiers `(c, f, s, t)` are in the indexes.
-/
namespace Verif
namespace Heed
open Spec

theorem utf8Len_eq (c : Char) : utf8Len c = c.utf8Size := by
  unfold utf8Len Char.utf8Size
  simp only [Char.toNat, UInt32.le_iff_toNat_le]
  repeat' split
  all_goals simp_all <;> omega

/-- The keys the model accepts are the keys LMDB accepts. -/
theorem legalKey_eq : legalKey = lmdbKey := by
  funext k
  unfold legalKey lmdbKey
  have : utf8Len = Char.utf8Size := funext utf8Len_eq
  rw [this, Bool.decide_and]

theorem getStr_def (db : BMap Str Nat) (k : Str) : getStr db k = if lmdbKey k then db.get? k else none := by
  unfold getStr; rw [legalKey_eq]

theorem putStr_def (db : BMap Str Nat) (k : Str) (v : Nat) : putStr db k v = if lmdbKey k then db.insert k v else db := by
  unfold putStr; rw [legalKey_eq]

abbrev Quads := Nat → Nat → Nat → Nat → Prop

structure Inv (s : Heed) (Q : Quads) : Prop where
  bound : ∀ n, s.ctr = some n → n < 2 ^ 64
  valLe : ∀ i v, s.idToVal.get? i = some v → ∃ n, s.ctr = some n ∧ i ≤ n
  collLe : ∀ i v, s.idToColl.get? i = some v → ∃ n, s.ctr = some n ∧ i ≤ n
  qLe : ∀ a b c d, Q a b c d → ∃ n, s.ctr = some n ∧ a ≤ n
  c2i : ∀ c i, s.collToId.get? c = some i → s.idToColl.get? i = some c ∧ lmdbKey c = true
  v2i : ∀ v i, s.valToId.get? v = some i → s.idToVal.get? i = some v ∧ lmdbKey v = true
  i2v : ∀ v i, lmdbKey v = true → s.idToVal.get? i = some v → s.valToId.get? v = some i
  disj : ∀ i v, s.idToVal.get? i = some v → s.idToColl.get? i = none
  qVal : ∀ a b c d, Q a b c d →
    (∃ v, s.idToVal.get? b = some v) ∧ (∃ v, s.idToVal.get? c = some v) ∧ (∃ v, s.idToVal.get? d = some v)
  cfst : ∀ k, k ∈ s.cfst ↔ ∃ c f s t, Q c f s t ∧ k = key c f s t
  cfts : ∀ k, k ∈ s.cfts ↔ ∃ c f s t, Q c f s t ∧ k = key c f t s
  csft : ∀ k, k ∈ s.csft ↔ ∃ c f s t, Q c f s t ∧ k = key c s f t
  cstf : ∀ k, k ∈ s.cstf ↔ ∃ c f s t, Q c f s t ∧ k = key c s t f
  ctfs : ∀ k, k ∈ s.ctfs ↔ ∃ c f s t, Q c f s t ∧ k = key c t f s
  ctsf : ∀ k, k ∈ s.ctsf ↔ ∃ c f s t, Q c f s t ∧ k = key c t s f

theorem Inv.lt {s : Heed} {Q} (h : Inv s Q) {a b c d} (hq : Q a b c d) :
    a < 2 ^ 64 ∧ b < 2 ^ 64 ∧ c < 2 ^ 64 ∧ d < 2 ^ 64 := by
  obtain ⟨n, hn, ha⟩ := h.qLe _ _ _ _ hq
  obtain ⟨⟨v1, h1⟩, ⟨v2, h2⟩, ⟨v3, h3⟩⟩ := h.qVal _ _ _ _ hq
  obtain ⟨m1, e1, l1⟩ := h.valLe _ _ h1
  obtain ⟨m2, e2, l2⟩ := h.valLe _ _ h2
  obtain ⟨m3, e3, l3⟩ := h.valLe _ _ h3
  have := h.bound n hn
  rw [hn] at e1 e2 e3; cases e1; cases e2; cases e3
  omega

theorem inv_new : Inv new (fun _ _ _ _ => False) := by
  constructor <;> simp [new]

theorem getStr_eq {s : Heed} {Q} (h : Inv s Q) (c : Str) : getStr s.collToId c = s.collToId.get? c := by
  rw [getStr_def]
  split
  · rfl
  · rename_i hl
    cases e : s.collToId.get? c with
    | none => rfl
    | some i => exact absurd (h.c2i c i e).2 hl

theorem getVal_eq {s : Heed} {Q} (h : Inv s Q) (v : Str) : getStr s.valToId v = s.valToId.get? v := by
  rw [getStr_def]
  split
  · rfl
  · rename_i hl
    cases e : s.valToId.get? v with
    | none => rfl
    | some i => exact absurd (h.v2i v i e).2 hl

/-- The triples held under a collection identifier. -/
def held (s : Heed) (Q : Quads) (cid : Nat) (t : Trip) : Prop :=
  ∃ f se th, Q cid f se th ∧ s.idToVal.get? f = some t.fst ∧
    s.idToVal.get? se = some t.snd ∧ s.idToVal.get? th = some t.thd

/-- The world a store satisfying the invariant stands for. -/
def world (s : Heed) (Q : Quads) : World := fun c => (s.collToId.get? c).map (held s Q)

def Rel (s : Heed) (w : World) : Prop := ∃ Q, Inv s Q ∧ w = world s Q

theorem rel_new : Rel new emptyWorld := ⟨_, inv_new, by funext c; simp [world, new, emptyWorld]⟩

/-! ## reading -/

theorem triplesLoop_ok {s : Heed} {Q} (h : Inv s Q) (cid : Nat) (l : List (List UInt8))
    (hl : ∀ k ∈ l, ∃ c f s t, Q c f s t ∧ k = key c f s t) : ∀ acc : BSet Trip,
    ∃ r, triplesLoop s cid l acc = .ok r ∧ ∀ t, t ∈ r ↔ t ∈ acc ∨ ∃ f se th, key cid f se th ∈ l ∧ Q cid f se th ∧
      s.idToVal.get? f = some t.fst ∧ s.idToVal.get? se = some t.snd ∧ s.idToVal.get? th = some t.thd := by
  induction l with
  | nil => intro acc; exact ⟨acc, rfl, by simp⟩
  | cons k l ih =>
    intro acc
    have ih := ih (fun k hk => hl k (by simp [hk]))
    obtain ⟨c, f, se, th, hq, rfl⟩ := hl k (by simp)
    obtain ⟨lc, lf, ls, lt⟩ := h.lt hq
    have kin : ∀ {c' f' s' t'}, Q c' f' s' t' → key c' f' s' t' = key c f se th → c' = c ∧ f' = f ∧ s' = se ∧ t' = th := by
      intro c' f' s' t' hq' e
      obtain ⟨a1, a2, a3, a4⟩ := h.lt hq'
      exact key_inj a1 a2 a3 a4 lc lf ls lt e
    rw [triplesLoop]
    simp only [key_take, key_drop8, key_drop16, key_drop24, readId_beBytes lc, readId_beBytes lf, readId_beBytes ls,
      readId_beBytes lt]
    by_cases hc : cid = c
    · subst hc
      obtain ⟨⟨v1, h1⟩, ⟨v2, h2⟩, ⟨v3, h3⟩⟩ := h.qVal _ _ _ _ hq
      simp only [if_true, h1, h2, h3]
      obtain ⟨r, hr, hr'⟩ := ih (acc.insert ⟨v1, v2, v3⟩)
      refine ⟨r, hr, ?_⟩
      intro t
      rw [hr', BSet.mem_insert]
      constructor
      · rintro ((rfl | h') | ⟨f', s', t', hk, h'⟩)
        · exact .inr ⟨f, se, th, by simp, hq, h1, h2, h3⟩
        · exact .inl h'
        · exact .inr ⟨f', s', t', by simp [hk], h'⟩
      · rintro (h' | ⟨f', s', t', hk, hq', e1, e2, e3⟩)
        · exact .inl (.inr h')
        · rcases List.mem_cons.mp hk with hk | hk
          · obtain ⟨_, rfl, rfl, rfl⟩ := kin hq' hk
            rw [h1] at e1; rw [h2] at e2; rw [h3] at e3
            refine .inl (.inl ?_)
            cases t; simp_all
          · exact .inr ⟨f', s', t', hk, hq', e1, e2, e3⟩
    · simp only [hc, if_false]
      obtain ⟨r, hr, hr'⟩ := ih acc
      refine ⟨r, hr, ?_⟩
      intro t
      rw [hr']
      constructor
      · rintro (h' | ⟨f', s', t', hk, h'⟩)
        · exact .inl h'
        · exact .inr ⟨f', s', t', by simp [hk], h'⟩
      · rintro (h' | ⟨f', s', t', hk, hq', h'⟩)
        · exact .inl h'
        · rcases List.mem_cons.mp hk with hk | hk
          · exact absurd (kin hq' hk).1 hc
          · exact .inr ⟨f', s', t', hk, hq', h'⟩

theorem triples_ok {s : Heed} {Q} (h : Inv s Q) {c : Str} {p} (hw : world s Q c = some p) :
    ∃ ts, triples s c = .ok ts ∧ ∀ t, t ∈ ts ↔ p t := by
  simp only [world, Option.map_eq_some_iff] at hw
  obtain ⟨cid, hc, rfl⟩ := hw
  simp only [triples, getStr_eq h, hc]
  obtain ⟨r, hr, hr'⟩ := triplesLoop_ok h cid s.cfst.toList (fun k hk => (h.cfst k).mp hk) ∅
  refine ⟨r, hr, fun t => ?_⟩
  rw [hr']
  constructor
  · rintro (h' | ⟨f, se, th, _, h'⟩)
    · exact absurd h' (BSet.not_mem_empty t)
    · exact ⟨f, se, th, h'⟩
  · rintro ⟨f, se, th, hq, h'⟩
    exact .inr ⟨f, se, th, (h.cfst _).mpr ⟨cid, f, se, th, hq, rfl⟩, hq, h'⟩

theorem triples_missing {s : Heed} {Q} (h : Inv s Q) {c : Str} (hw : world s Q c = none) : triples s c = .panic := by
  simp only [world, Option.map_eq_none_iff] at hw
  simp [triples, getStr_eq h, hw]

theorem agrees {s : Heed} {Q} (h : Inv s Q) : Agrees ops s (world s Q) := by
  refine ⟨⟨s.collToId.keys, rfl, s.collToId.keys_nodup, ?_⟩, fun c p hw => triples_ok h hw⟩
  intro c
  rw [BMap.mem_keys_isSome]; simp [world]

/-! ## adding and removing collections -/

theorem inv_fresh_coll {s : Heed} {Q} (h : Inv s Q) (i : Nat) (hi : i < 2 ^ 64) (hgt : ∀ n, s.ctr = some n → n < i)
    (c : Str) : Inv { s with ctr := some i, collToId := putStr s.collToId c i, idToColl := s.idToColl.insert i c } Q := by
  have le : ∀ j, (∃ n, s.ctr = some n ∧ j ≤ n) → ∃ n, some i = some n ∧ j ≤ n := by
    rintro j ⟨n, hn, hj⟩; exact ⟨i, rfl, by have := hgt n hn; omega⟩
  have ne : ∀ j, (∃ n, s.ctr = some n ∧ j ≤ n) → j ≠ i := by
    rintro j ⟨n, hn, hj⟩; have := hgt n hn; omega
  refine { h with bound := ?_, valLe := ?_, collLe := ?_, qLe := ?_, c2i := ?_, disj := ?_ }
  · rintro n ⟨⟩; exact hi
  · exact fun j v hv => le j (h.valLe j v hv)
  · intro j v hv
    by_cases e : j = i
    · subst e; exact ⟨j, rfl, Nat.le_refl _⟩
    · exact le j (h.collLe j v (by rw [← hv, BMap.get?_insert_ne _ _ e]))
  · exact fun a b c d hq => le a (h.qLe a b c d hq)
  · intro d j hd
    simp only [putStr_def] at hd
    have old : s.collToId.get? d = some j → (s.idToColl.insert i c).get? j = some d ∧ lmdbKey d = true := by
      intro hd
      have := h.c2i d j hd
      refine ⟨?_, this.2⟩
      rw [BMap.get?_insert_ne _ _ (ne j (h.collLe j d this.1))]; exact this.1
    split at hd
    · rename_i hl
      by_cases e : d = c
      · subst e
        rw [BMap.get?_insert_self] at hd; cases hd
        exact ⟨BMap.get?_insert_self _ _ _, hl⟩
      · rw [BMap.get?_insert_ne _ _ e] at hd; exact old hd
    · exact old hd
  · intro j v hv
    show (s.idToColl.insert i c).get? j = none
    rw [BMap.get?_insert_ne _ _ (ne j (h.valLe j v hv))]; exact h.disj j v hv

/-- Exactly when `add_collection` panics: the identifiers are used up. -/
def Exhausted (s : Heed) : Prop := s.ctr = some (2 ^ 64 - 1)

theorem addCollection_cases {s : Heed} {Q} (h : Inv s Q) (ok : Bool) (c : Str) :
    ((∃ i, s.collToId.get? c = some i) ∧ addCollectionTx ok s c = (.ok (), Tx.begin s)) ∨
    (s.collToId.get? c = none ∧ Exhausted s ∧ addCollectionTx ok s c = (.panic, Tx.begin s)) ∨
    (s.collToId.get? c = none ∧ ¬ Exhausted s ∧ ∃ i, i < 2 ^ 64 ∧ (∀ n, s.ctr = some n → n < i) ∧
      ∃ t, addCollectionTx ok s c = (.ok (), t) ∧ (∀ d ∈ t.seen, d = s ∨ d = t.durable) ∧
        t.durable = if ok then
          { s with ctr := some i, collToId := putStr s.collToId c i, idToColl := s.idToColl.insert i c } else s) := by
  unfold addCollectionTx
  simp only [Tx.begin, getStr_eq h]
  cases hc : s.collToId.get? c with
  | some i => exact .inl ⟨⟨i, rfl⟩, rfl⟩
  | none =>
    refine .inr ?_
    cases hn : s.ctr with
    | none =>
      refine .inr ⟨rfl, by simp [Exhausted, hn], 0, by decide, by simp, _, rfl, ?_, ?_⟩
      · cases ok <;> simp [Tx.write, Tx.commit]
      · cases ok <;> simp [Tx.write, Tx.commit]
    | some n =>
      have hb := h.bound n hn
      simp only [inc]
      by_cases hlt : n + 1 < 2 ^ 64
      · simp only [hlt, if_true]
        refine .inr ⟨trivial, ?_, n + 1, hlt, ?_, _, rfl, ?_, ?_⟩
        · intro he; unfold Exhausted at he; rw [hn] at he; cases he; omega
        · rintro m ⟨⟩; omega
        · cases ok <;> simp [Tx.write, Tx.commit]
        · cases ok <;> simp [Tx.write, Tx.commit]
      · simp only [hlt, if_false]
        refine .inl ⟨trivial, ?_, trivial⟩
        unfold Exhausted; rw [hn]
        congr 1; omega

theorem world_fresh_coll {s : Heed} {Q} (h : Inv s Q) (i : Nat) (hgt : ∀ n, s.ctr = some n → n < i)
    (c : Str) (hc : s.collToId.get? c = none) :
    world { s with ctr := some i, collToId := putStr s.collToId c i, idToColl := s.idToColl.insert i c } Q =
      if lmdbKey c then apply false (world s Q) (.addCollection c) else world s Q := by
  have hw : world s Q c = none := by simp [world, hc]
  simp only [apply, hw]
  funext d
  rw [putStr_def]
  split
  · by_cases e : d = c
    · subst e
      simp only [world, BMap.get?_insert_self, World.set_same, Option.map_some, Option.some.injEq]
      funext t
      simp only [eq_iff_iff, iff_false]
      rintro ⟨f, se, th, hq, _⟩
      obtain ⟨n, hn, hl⟩ := h.qLe _ _ _ _ hq
      have := hgt n hn
      omega
    · simp only [world, BMap.get?_insert_ne _ _ e, World.set_other _ _ e]; rfl
  · rfl

theorem inv_remove_coll {s : Heed} {Q} (h : Inv s Q) {c : Str} {i : Nat} (hc : s.collToId.get? c = some i) :
    Inv { s with collToId := s.collToId.erase c, idToColl := s.idToColl.erase i } Q := by
  refine { h with collLe := ?_, c2i := ?_, disj := ?_ }
  · intro j v hv
    by_cases e : j = i
    · subst e; simp at hv
    · exact h.collLe j v (by rw [← hv, BMap.get?_erase_ne _ e])
  · intro d j hd
    by_cases e : d = c
    · subst e; simp at hd
    · have hd' : s.collToId.get? d = some j := by
        rw [← hd]; exact (BMap.get?_erase_ne _ e).symm
      have h1 := h.c2i d j hd'
      have hj : j ≠ i := by
        rintro rfl
        have := (h.c2i c j hc).1
        rw [h1.1] at this; cases this; exact e rfl
      refine ⟨?_, h1.2⟩
      show (s.idToColl.erase i).get? j = some d
      rw [BMap.get?_erase_ne _ hj]; exact h1.1
  · intro j v hv
    show (s.idToColl.erase i).get? j = none
    by_cases e : j = i
    · subst e; simp
    · rw [BMap.get?_erase_ne _ e]; exact h.disj j v hv

theorem removeCollection_cases {s : Heed} {Q} (h : Inv s Q) (ok : Bool) (c : Str) :
    (s.collToId.get? c = none ∧ removeCollectionTx ok s c = (.panic, Tx.begin s)) ∨
    (∃ i, s.collToId.get? c = some i ∧ ∃ t, removeCollectionTx ok s c = (.ok (), t) ∧
      (∀ d ∈ t.seen, d = s ∨ d = t.durable) ∧
      t.durable = if ok then { s with collToId := s.collToId.erase c, idToColl := s.idToColl.erase i } else s) := by
  unfold removeCollectionTx
  simp only [Tx.begin, getStr_eq h]
  cases hc : s.collToId.get? c with
  | none => exact .inl ⟨rfl, rfl⟩
  | some i =>
    refine .inr ⟨i, rfl, _, rfl, ?_, ?_⟩
    · cases ok <;> simp [Tx.write, Tx.commit]
    · cases ok <;> simp [Tx.write, Tx.commit]

theorem world_remove_coll {s : Heed} {Q} {c : Str} {i : Nat} :
    world { s with collToId := s.collToId.erase c, idToColl := s.idToColl.erase i } Q =
      apply false (world s Q) (.removeCollection c) := by
  funext d
  simp only [apply]
  by_cases e : d = c
  · subst e; simp [world]
  · simp only [world, BMap.get?_erase_ne _ e, World.set_other _ _ e]; rfl

/-! ## adding triples -/

/-- What allocating identifiers for the texts `V` may change. -/
structure Grow (w w' : Heed) (V : List Str) : Prop where
  ext : ∀ i x, w.idToVal.get? i = some x → w'.idToVal.get? i = some x
  coll : w'.collToId = w.collToId
  icoll : w'.idToColl = w.idToColl
  known : ∀ v, (∃ i, w'.valToId.get? v = some i) ↔ (∃ i, w.valToId.get? v = some i) ∨ (lmdbKey v = true ∧ v ∈ V)

theorem Grow.trans {a b c : Heed} {V W : List Str} (h : Grow a b V) (h' : Grow b c W) : Grow a c (V ++ W) where
  ext i x hx := h'.ext i x (h.ext i x hx)
  coll := h'.coll.trans h.coll
  icoll := h'.icoll.trans h.icoll
  known v := by
    rw [h'.known, h.known, List.mem_append]
    constructor
    · rintro ((h | h) | h)
      · exact .inl h
      · exact .inr ⟨h.1, .inl h.2⟩
      · exact .inr ⟨h.1, .inr h.2⟩
    · rintro (h | ⟨h, h' | h'⟩)
      · exact .inl (.inl h)
      · exact .inl (.inr ⟨h, h'⟩)
      · exact .inr ⟨h, h'⟩

theorem inv_fresh_val {w : Heed} {Q} {vid : Nat} (h : Inv { w with ctr := some vid } Q) (hlt : vid + 1 < 2 ^ 64) (v : Str)
    (hv : w.valToId.get? v = none) :
    Inv { w with ctr := some (vid + 1), valToId := putStr w.valToId v (vid + 1), idToVal := w.idToVal.insert (vid + 1) v } Q := by
  have le : ∀ j, (∃ n, some vid = some n ∧ j ≤ n) → ∃ n, some (vid + 1) = some n ∧ j ≤ n := by
    rintro j ⟨n, ⟨⟩, hj⟩; exact ⟨_, rfl, by omega⟩
  have ne : ∀ j, (∃ n, some vid = some n ∧ j ≤ n) → j ≠ vid + 1 := by
    rintro j ⟨n, ⟨⟩, hj⟩; omega
  have old : ∀ i x, w.idToVal.get? i = some x → (w.idToVal.insert (vid + 1) v).get? i = some x := by
    intro i x hx
    rw [BMap.get?_insert_ne _ _ (ne i (h.valLe i x hx))]; exact hx
  refine { h with bound := ?_, valLe := ?_, collLe := ?_, qLe := ?_, v2i := ?_, i2v := ?_, disj := ?_, qVal := ?_ }
  · rintro n ⟨⟩; exact hlt
  · intro j x hx
    by_cases e : j = vid + 1
    · subst e; exact ⟨_, rfl, Nat.le_refl _⟩
    · exact le j (h.valLe j x (by rw [← hx]; exact (BMap.get?_insert_ne _ _ e).symm))
  · exact fun j x hx => le j (h.collLe j x hx)
  · exact fun a b c d hq => le a (h.qLe a b c d hq)
  · intro x i hx
    simp only [putStr_def] at hx
    have old2 : w.valToId.get? x = some i → (w.idToVal.insert (vid + 1) v).get? i = some x ∧ lmdbKey x = true :=
      fun hx => ⟨old i x (h.v2i x i hx).1, (h.v2i x i hx).2⟩
    split at hx
    · rename_i hl
      by_cases e : x = v
      · subst e
        rw [BMap.get?_insert_self] at hx; cases hx
        exact ⟨BMap.get?_insert_self _ _ _, hl⟩
      · rw [BMap.get?_insert_ne _ _ e] at hx; exact old2 hx
    · exact old2 hx
  · intro x i hl hx
    show (putStr w.valToId v (vid + 1)).get? x = some i
    have hx : (w.idToVal.insert (vid + 1) v).get? i = some x := hx
    rw [putStr_def]
    by_cases e : i = vid + 1
    · subst e
      rw [BMap.get?_insert_self] at hx; cases hx
      simp [hl]
    · rw [BMap.get?_insert_ne _ _ e] at hx
      have := h.i2v x i hl hx
      have hne : x ≠ v := by rintro rfl; rw [hv] at this; cases this
      split
      · rw [BMap.get?_insert_ne _ _ hne]; exact this
      · exact this
  · intro j x hx
    show w.idToColl.get? j = none
    by_cases e : j = vid + 1
    · subst e
      cases hc : w.idToColl.get? (vid + 1) with
      | none => rfl
      | some c => exact absurd rfl (ne _ (h.collLe _ c hc))
    · exact h.disj j x (by rw [← hx]; exact (BMap.get?_insert_ne _ _ e).symm)
  · intro a b c d hq
    obtain ⟨⟨v1, h1⟩, ⟨v2, h2⟩, ⟨v3, h3⟩⟩ := h.qVal a b c d hq
    exact ⟨⟨v1, old _ _ h1⟩, ⟨v2, old _ _ h2⟩, ⟨v3, old _ _ h3⟩⟩

/-- Every durable state seen so far is the current one. -/
def Quiet (t : Tx) : Prop := ∀ d ∈ t.seen, d = t.durable

theorem Quiet.write {t : Tx} (h : Quiet t) (f) : Quiet (t.write f) := by
  intro d hd
  simp only [Tx.write, List.mem_cons] at hd
  rcases hd with rfl | hd
  · rfl
  · exact h d hd

theorem valueId_spec {Q} (v : Str) (st : Tx × Nat) (h : Inv { st.1.work with ctr := some st.2 } Q) (hs : Quiet st.1) :
    ((valueId v st).1 = none ∧ st.2 = 2 ^ 64 - 1 ∧ (valueId v st).2 = st) ∨
    (∃ id tx vid, valueId v st = (some id, tx, vid) ∧ Quiet tx ∧ tx.durable = st.1.durable ∧
      Inv { tx.work with ctr := some vid } Q ∧ Grow st.1.work tx.work [v] ∧ tx.work.idToVal.get? id = some v) := by
  unfold valueId
  have hg : getStr st.1.work.valToId v = st.1.work.valToId.get? v := getVal_eq h v
  rw [hg]
  cases hv : st.1.work.valToId.get? v with
  | some id =>
    have := h.v2i v id hv
    refine .inr ⟨id, st.1, st.2, rfl, hs, rfl, h, ?_, this.1⟩
    refine ⟨fun _ _ h => h, rfl, rfl, ?_⟩
    intro x
    constructor
    · exact .inl
    · rintro (h | ⟨_, hx⟩)
      · exact h
      · simp only [List.mem_singleton] at hx; subst hx; exact ⟨id, hv⟩
  | none =>
    have hb := h.bound st.2 rfl
    by_cases hlt : st.2 + 1 < 2 ^ 64
    · simp only [inc, hlt, if_true]
      refine .inr ⟨st.2 + 1, _, _, rfl, (hs.write _).write _, rfl, inv_fresh_val h hlt v hv, ?_, ?_⟩
      · refine ⟨?_, rfl, rfl, ?_⟩
        · intro i x hx
          show (st.1.work.idToVal.insert _ _).get? i = some x
          obtain ⟨n, hn, hl⟩ := h.valLe i x hx
          cases hn
          rw [BMap.get?_insert_ne _ _ (by omega)]; exact hx
        · intro x
          show (∃ i, (putStr st.1.work.valToId v (st.2 + 1)).get? x = some i) ↔ _
          rw [putStr_def]
          split
          · rename_i hl
            by_cases e : x = v
            · subst e; simp [hl]
            · rw [BMap.get?_insert_ne _ _ e]; simp [e]
          · rename_i hl
            constructor
            · exact .inl
            · rintro (h | ⟨h, hx⟩)
              · exact h
              · simp only [List.mem_singleton] at hx; subst hx; exact absurd h hl
      · exact BMap.get?_insert_self _ _ _
    · simp only [inc, hlt, if_false]
      exact .inl ⟨trivial, by omega, trivial⟩

theorem valueId_le {v : Str} {st : Tx × Nat} {id tx vid} (e : valueId v st = (some id, tx, vid)) :
    st.2 ≤ vid ∧ vid ≤ st.2 + 1 := by
  unfold valueId at e
  split at e
  · cases e; exact ⟨Nat.le_refl _, Nat.le_succ _⟩
  · unfold inc at e
    by_cases hlt : st.2 + 1 < 2 ^ 64 <;> simp only [hlt, if_true, if_false] at e <;> cases e
    exact ⟨Nat.le_succ _, Nat.le_refl _⟩

/-- Add one quadruple. -/
def addQ (Q : Quads) (c f s t : Nat) : Quads := fun a b d e => Q a b d e ∨ (a = c ∧ b = f ∧ d = s ∧ e = t)

theorem inv_putIndexes {w : Heed} {Q} (h : Inv w Q) (c f s t : Nat) (hc : ∃ n, w.ctr = some n ∧ c ≤ n)
    (hf : ∃ v, w.idToVal.get? f = some v) (hs : ∃ v, w.idToVal.get? s = some v) (ht : ∃ v, w.idToVal.get? t = some v) :
    Inv { w with
      cfst := w.cfst.insert (key c f s t), cfts := w.cfts.insert (key c f t s), csft := w.csft.insert (key c s f t),
      cstf := w.cstf.insert (key c s t f), ctfs := w.ctfs.insert (key c t f s), ctsf := w.ctsf.insert (key c t s f) }
      (addQ Q c f s t) := by
  have aux : ∀ (S : BSet (List UInt8)) (enc : Nat → Nat → Nat → Nat → List UInt8),
      (∀ k, k ∈ S ↔ ∃ a b d e, Q a b d e ∧ k = enc a b d e) →
      ∀ k, k ∈ S.insert (enc c f s t) ↔ ∃ a b d e, addQ Q c f s t a b d e ∧ k = enc a b d e := by
    intro S enc hS k
    rw [BSet.mem_insert, hS]
    constructor
    · rintro (rfl | ⟨a, b, d, e, hq, rfl⟩)
      · exact ⟨c, f, s, t, .inr ⟨rfl, rfl, rfl, rfl⟩, rfl⟩
      · exact ⟨a, b, d, e, .inl hq, rfl⟩
    · rintro ⟨a, b, d, e, hq | ⟨rfl, rfl, rfl, rfl⟩, rfl⟩
      · exact .inr ⟨a, b, d, e, hq, rfl⟩
      · exact .inl rfl
  exact {
    bound := h.bound, valLe := h.valLe, collLe := h.collLe
    qLe := by
      rintro a b d e (hq | ⟨rfl, rfl, rfl, rfl⟩)
      · exact h.qLe a b d e hq
      · exact hc
    c2i := h.c2i, v2i := h.v2i, i2v := h.i2v, disj := h.disj
    qVal := by
      rintro a b d e (hq | ⟨rfl, rfl, rfl, rfl⟩)
      · exact h.qVal a b d e hq
      · exact ⟨hf, hs, ht⟩
    cfst := aux w.cfst (fun c f s t => key c f s t) h.cfst
    cfts := aux w.cfts (fun c f s t => key c f t s) h.cfts
    csft := aux w.csft (fun c f s t => key c s f t) h.csft
    cstf := aux w.cstf (fun c f s t => key c s t f) h.cstf
    ctfs := aux w.ctfs (fun c f s t => key c t f s) h.ctfs
    ctsf := aux w.ctsf (fun c f s t => key c t s f) h.ctsf }

/-- Identifiers in use keep their meaning. -/
theorem held_grow {w w' : Heed} {Q V} {n} (h : Inv { w with ctr := n } Q) (g : Grow w w' V) (cid : Nat) (t : Trip) :
    held w' Q cid t ↔ held w Q cid t := by
  constructor
  · rintro ⟨f, se, th, hq, e1, e2, e3⟩
    obtain ⟨⟨v1, h1⟩, ⟨v2, h2⟩, ⟨v3, h3⟩⟩ := h.qVal _ _ _ _ hq
    have g1 := g.ext f v1 h1
    have g2 := g.ext se v2 h2
    have g3 := g.ext th v3 h3
    rw [e1] at g1; rw [e2] at g2; rw [e3] at g3
    cases g1; cases g2; cases g3
    exact ⟨f, se, th, hq, h1, h2, h3⟩
  · rintro ⟨f, se, th, hq, e1, e2, e3⟩
    exact ⟨f, se, th, hq, g.ext _ _ e1, g.ext _ _ e2, g.ext _ _ e3⟩

/-- The texts of a triple. -/
def texts (t : Trip) : List Str := [t.fst, t.snd, t.thd]

theorem addTrip_spec {Q} (cid : Nat) (trip : Trip) (st : Tx × Nat) (h : Inv { st.1.work with ctr := some st.2 } Q)
    (hs : Quiet st.1) (hcid : cid ≤ st.2) :
    (∃ st', addTrip cid trip st = (false, st') ∧ Quiet st'.1 ∧ st'.1.durable = st.1.durable ∧
      2 ^ 64 - 1 ≤ st.2 + 2) ∨
    (∃ tx vid Q', addTrip cid trip st = (true, tx, vid) ∧ Quiet tx ∧ tx.durable = st.1.durable ∧
      Inv tx.work Q' ∧ tx.work.ctr = some vid ∧ (st.2 ≤ vid ∧ vid ≤ st.2 + 3) ∧ Grow st.1.work tx.work (texts trip) ∧
      ∀ d t, held tx.work Q' d t ↔ held st.1.work Q d t ∨ (d = cid ∧ t = trip)) := by
  unfold addTrip
  rcases valueId_spec trip.fst st h hs with ⟨e1, e2, e3⟩ | ⟨fid, tx1, v1, e1, q1, d1, i1, g1, hf⟩
  · refine .inl ⟨st, ?_, hs, rfl, by omega⟩
    rw [show valueId trip.fst st = (none, st) from Prod.ext e1 e3]
  rw [e1]; dsimp only
  obtain ⟨m1, m1'⟩ := valueId_le e1
  rcases valueId_spec trip.snd (tx1, v1) i1 q1 with ⟨e1', e2, e3⟩ | ⟨sid, tx2, v2, e1', q2, d2, i2, g2, hse⟩
  · refine .inl ⟨(tx1, v1), ?_, q1, d1, by dsimp only at e2; omega⟩
    rw [show valueId trip.snd (tx1, v1) = (none, tx1, v1) from Prod.ext e1' e3]
  rw [e1']; dsimp only
  obtain ⟨m2, m2'⟩ := valueId_le e1'
  dsimp only at m2 m2'
  rcases valueId_spec trip.thd (tx2, v2) i2 q2 with ⟨e1'', e2, e3⟩ | ⟨tid, tx3, v3, e1'', q3, d3, i3, g3, hth⟩
  · refine .inl ⟨(tx2, v2), ?_, q2, d2.trans d1, by dsimp only at e2; omega⟩
    rw [show valueId trip.thd (tx2, v2) = (none, tx2, v2) from Prod.ext e1'' e3]
  rw [e1'']; dsimp only
  obtain ⟨m3, m3'⟩ := valueId_le e1''
  dsimp only at m3 m3'
  have hf' := g3.ext _ _ (g2.ext _ _ hf)
  have hse' := g3.ext _ _ hse
  have g : Grow st.1.work tx3.work (texts trip) := (g1.trans g2).trans g3
  have iv := inv_putIndexes i3 cid fid sid tid ⟨v3, rfl, by omega⟩ ⟨_, hf'⟩ ⟨_, hse'⟩ ⟨_, hth⟩
  refine .inr ⟨_, v3, addQ Q cid fid sid tid, rfl, ?_, ?_, iv, rfl, ⟨by omega, by omega⟩, ⟨g.ext, g.coll, g.icoll, g.known⟩, ?_⟩
  · exact ((((((q3.write _).write _).write _).write _).write _).write _).write _
  · exact d3.trans (d2.trans d1)
  · intro d t
    rw [← held_grow h g]
    constructor
    · rintro ⟨f, se, th, hq | ⟨rfl, rfl, rfl, rfl⟩, e1, e2, e3⟩
      · exact .inl ⟨f, se, th, hq, e1, e2, e3⟩
      · have e1 : tx3.work.idToVal.get? f = some t.fst := e1
        have e2 : tx3.work.idToVal.get? se = some t.snd := e2
        have e3 : tx3.work.idToVal.get? th = some t.thd := e3
        rw [hf'] at e1; rw [hse'] at e2; rw [hth] at e3
        refine .inr ⟨rfl, ?_⟩
        cases t; cases trip; simp_all
    · rintro (⟨f, se, th, hq, e⟩ | ⟨rfl, rfl⟩)
      · exact ⟨f, se, th, .inl hq, e⟩
      · exact ⟨fid, sid, tid, .inr ⟨rfl, rfl, rfl, rfl⟩, hf', hse', hth⟩

theorem inv_ctr {w : Heed} {Q} {n} (h : Inv w Q) (e : w.ctr = some n) : Inv { w with ctr := some n } Q := by
  cases w; cases e; exact h

theorem addTripsLoop_spec (cid : Nat) (l : List Trip) : ∀ (Q : Quads) (st : Tx × Nat),
    Inv st.1.work Q → st.1.work.ctr = some st.2 → Quiet st.1 → cid ≤ st.2 →
    (∃ st', addTripsLoop cid l st = (false, st') ∧ Quiet st'.1 ∧ st'.1.durable = st.1.durable ∧
      2 ^ 64 ≤ st.2 + 3 * l.length) ∨
    (∃ tx vid Q', addTripsLoop cid l st = (true, tx, vid) ∧ Quiet tx ∧ tx.durable = st.1.durable ∧
      Inv tx.work Q' ∧ tx.work.ctr = some vid ∧ (st.2 ≤ vid ∧ vid ≤ st.2 + 3 * l.length) ∧
      Grow st.1.work tx.work (l.flatMap texts) ∧
      ∀ d t, held tx.work Q' d t ↔ held st.1.work Q d t ∨ (d = cid ∧ t ∈ l)) := by
  induction l with
  | nil =>
    intro Q st h hc hs hcid
    exact .inr ⟨st.1, st.2, Q, rfl, hs, rfl, h, hc, ⟨Nat.le_refl _, by simp⟩, ⟨fun _ _ h => h, rfl, rfl, by simp⟩, by simp⟩
  | cons trip l ih =>
    intro Q st h hc hs hcid
    rw [addTripsLoop]
    rcases addTrip_spec cid trip st (inv_ctr h hc) hs hcid with ⟨st', e, q, d, b⟩ | ⟨tx, vid, Q', e, q, d, i, c, m, g, hh⟩
    · rw [e]; exact .inl ⟨st', rfl, q, d, by rw [List.length_cons]; omega⟩
    · rw [e]; dsimp only
      rcases ih Q' (tx, vid) i c q (Nat.le_trans hcid m.1) with
        ⟨st', e', q', d', b'⟩ | ⟨tx', vid', Q'', e', q', d', i', c', m', g', hh'⟩
      · exact .inl ⟨st', e', q', d'.trans d, by rw [List.length_cons]; dsimp only at b'; omega⟩
      · refine .inr ⟨tx', vid', Q'', e', q', d'.trans d, i', c',
          by rw [List.length_cons]; dsimp only at m'; omega, g.trans g', ?_⟩
        intro x t
        rw [hh', hh, List.mem_cons]
        constructor
        · rintro ((h | ⟨rfl, rfl⟩) | ⟨rfl, h⟩)
          · exact .inl h
          · exact .inr ⟨rfl, .inl rfl⟩
          · exact .inr ⟨rfl, .inr h⟩
        · rintro (h | ⟨rfl, rfl | h⟩)
          · exact .inl (.inl h)
          · exact .inl (.inr ⟨rfl, rfl⟩)
          · exact .inr ⟨rfl, h⟩

theorem coll_ctr {s : Heed} {Q} (h : Inv s Q) {c : Str} {cid : Nat} (hc : s.collToId.get? c = some cid) :
    ∃ n, s.ctr = some n ∧ cid ≤ n := h.collLe cid c (h.c2i c cid hc).1

theorem addTriples_cases {s : Heed} {Q} (h : Inv s Q) (ok : Bool) (c : Str) (ts : BSet Trip) :
    (s.collToId.get? c = none ∧ addTriplesTx ok s c ts = (.panic, Tx.begin s)) ∨
    (∃ cid, s.collToId.get? c = some cid ∧
      ((∃ t, addTriplesTx ok s c ts = (.panic, t) ∧ t.durable = s ∧ (∀ d ∈ t.seen, d = s) ∧
          ∃ n, s.ctr = some n ∧ 2 ^ 64 ≤ n + 3 * ts.toList.length) ∨
       (∃ t, addTriplesTx ok s c ts = (.ok (), t) ∧ (∀ d ∈ t.seen, d = s ∨ d = t.durable) ∧
        if ok then ∃ Q', Inv t.durable Q' ∧ Grow s t.durable (ts.toList.flatMap texts) ∧
          (∃ n n', s.ctr = some n ∧ t.durable.ctr = some n' ∧ n' ≤ n + 3 * ts.toList.length) ∧
          (∀ d x, held t.durable Q' d x ↔ held s Q d x ∨ (d = cid ∧ x ∈ ts)) else t.durable = s))) := by
  unfold addTriplesTx
  simp only [Tx.begin, getStr_eq h]
  cases hc : s.collToId.get? c with
  | none => exact .inl ⟨rfl, rfl⟩
  | some cid =>
    obtain ⟨n, hn, hle⟩ := coll_ctr h hc
    refine .inr ⟨cid, rfl, ?_⟩
    simp only [hn]
    have hq : Quiet (⟨s, s, [s]⟩ : Tx) := by intro d hd; simpa using hd
    rcases addTripsLoop_spec cid ts.toList Q (⟨s, s, [s]⟩, n) h hn hq hle with
      ⟨st', e, q, d, b⟩ | ⟨tx, vid, Q', e, q, d, i, c', m, g, hh⟩
    · left
      refine ⟨st'.1, by rw [e], d, ?_, n, rfl, b⟩
      intro x hx; exact (q x hx).trans d
    · right
      refine ⟨tx.commit ok, by rw [e], ?_, ?_⟩
      · intro x hx
        simp only [Tx.commit, List.mem_cons] at hx
        rcases hx with rfl | hx
        · exact .inr rfl
        · exact .inl ((q x hx).trans d)
      · cases ok with
        | true => exact ⟨Q', i, g, ⟨n, vid, rfl, c', m.2⟩, hh⟩
        | false => exact d

/-! ## removing triples -/

/-- Remove one quadruple. -/
def delQ (Q : Quads) (c f s t : Nat) : Quads := fun a b d e => Q a b d e ∧ ¬ (a = c ∧ b = f ∧ d = s ∧ e = t)

theorem inv_delIndexes {w : Heed} {Q} (h : Inv w Q) (c f s t : Nat)
    (hc : c < 2 ^ 64) (hf : f < 2 ^ 64) (hs : s < 2 ^ 64) (ht : t < 2 ^ 64) :
    Inv { w with
      cfst := w.cfst.erase (key c f s t), cfts := w.cfts.erase (key c f t s), csft := w.csft.erase (key c s f t),
      cstf := w.cstf.erase (key c s t f), ctfs := w.ctfs.erase (key c t f s), ctsf := w.ctsf.erase (key c t s f) }
      (delQ Q c f s t) := by
  have aux : ∀ (S : BSet (List UInt8)) (enc : Nat → Nat → Nat → Nat → List UInt8),
      (∀ k, k ∈ S ↔ ∃ a b d e, Q a b d e ∧ k = enc a b d e) →
      (∀ a b d e, Q a b d e → enc a b d e = enc c f s t → a = c ∧ b = f ∧ d = s ∧ e = t) →
      ∀ k, k ∈ S.erase (enc c f s t) ↔ ∃ a b d e, delQ Q c f s t a b d e ∧ k = enc a b d e := by
    intro S enc hS hinj k
    rw [BSet.mem_erase, hS]
    constructor
    · rintro ⟨⟨a, b, d, e, hq, rfl⟩, hne⟩
      exact ⟨a, b, d, e, ⟨hq, by rintro ⟨rfl, rfl, rfl, rfl⟩; exact hne rfl⟩, rfl⟩
    · rintro ⟨a, b, d, e, ⟨hq, hne⟩, rfl⟩
      exact ⟨⟨a, b, d, e, hq, rfl⟩, fun he => hne (hinj a b d e hq he)⟩
  exact {
    bound := h.bound, valLe := h.valLe, collLe := h.collLe
    qLe := fun a b d e hq => h.qLe a b d e hq.1
    c2i := h.c2i, v2i := h.v2i, i2v := h.i2v, disj := h.disj
    qVal := fun a b d e hq => h.qVal a b d e hq.1
    cfst := aux w.cfst (fun c f s t => key c f s t) h.cfst (by
      intro a b d e hq he; obtain ⟨l1, l2, l3, l4⟩ := h.lt hq
      obtain ⟨r1, r2, r3, r4⟩ := key_inj l1 l2 l3 l4 hc hf hs ht he; exact ⟨r1, r2, r3, r4⟩)
    cfts := aux w.cfts (fun c f s t => key c f t s) h.cfts (by
      intro a b d e hq he; obtain ⟨l1, l2, l3, l4⟩ := h.lt hq
      obtain ⟨r1, r2, r3, r4⟩ := key_inj l1 l2 l4 l3 hc hf ht hs he; exact ⟨r1, r2, r4, r3⟩)
    csft := aux w.csft (fun c f s t => key c s f t) h.csft (by
      intro a b d e hq he; obtain ⟨l1, l2, l3, l4⟩ := h.lt hq
      obtain ⟨r1, r2, r3, r4⟩ := key_inj l1 l3 l2 l4 hc hs hf ht he; exact ⟨r1, r3, r2, r4⟩)
    cstf := aux w.cstf (fun c f s t => key c s t f) h.cstf (by
      intro a b d e hq he; obtain ⟨l1, l2, l3, l4⟩ := h.lt hq
      obtain ⟨r1, r2, r3, r4⟩ := key_inj l1 l3 l4 l2 hc hs ht hf he; exact ⟨r1, r4, r2, r3⟩)
    ctfs := aux w.ctfs (fun c f s t => key c t f s) h.ctfs (by
      intro a b d e hq he; obtain ⟨l1, l2, l3, l4⟩ := h.lt hq
      obtain ⟨r1, r2, r3, r4⟩ := key_inj l1 l4 l2 l3 hc ht hf hs he; exact ⟨r1, r3, r4, r2⟩)
    ctsf := aux w.ctsf (fun c f s t => key c t s f) h.ctsf (by
      intro a b d e hq he; obtain ⟨l1, l2, l3, l4⟩ := h.lt hq
      obtain ⟨r1, r2, r3, r4⟩ := key_inj l1 l4 l3 l2 hc ht hs hf he; exact ⟨r1, r4, r3, r2⟩) }

theorem delIndexes_work (c f s t : Nat) (tx : Tx) : (delIndexes c f s t tx).work =
    { tx.work with
      cfst := tx.work.cfst.erase (key c f s t), cfts := tx.work.cfts.erase (key c f t s),
      csft := tx.work.csft.erase (key c s f t), cstf := tx.work.cstf.erase (key c s t f),
      ctfs := tx.work.ctfs.erase (key c t f s), ctsf := tx.work.ctsf.erase (key c t s f) } := by
  simp only [delIndexes, Tx.write, key]

theorem delIndexes_durable (c f s t : Nat) (tx : Tx) : (delIndexes c f s t tx).durable = tx.durable := rfl

theorem delIndexes_quiet (c f s t : Nat) {tx : Tx} (h : Quiet tx) : Quiet (delIndexes c f s t tx) :=
  (((((h.write _).write _).write _).write _).write _).write _

theorem delIndexes_tables (c f s t : Nat) (tx : Tx) : (delIndexes c f s t tx).work.valToId = tx.work.valToId ∧
    (delIndexes c f s t tx).work.idToVal = tx.work.idToVal ∧ (delIndexes c f s t tx).work.collToId = tx.work.collToId ∧
    (delIndexes c f s t tx).work.ctr = tx.work.ctr := by
  rw [delIndexes_work]; exact ⟨rfl, rfl, rfl, rfl⟩

/-- The texts of the triples are all known. -/
def Knows (s : Heed) (l : List Trip) : Prop := ∀ t ∈ l, ∀ v ∈ texts t, ∃ i, s.valToId.get? v = some i

theorem removeTripsLoop_spec (cid : Nat) (hcid : cid < 2 ^ 64) (l : List Trip) : ∀ (Q : Quads) (tx : Tx),
    Inv tx.work Q → Quiet tx →
    (¬ Knows tx.work l ∧ ∃ tx', removeTripsLoop cid l tx = (false, tx') ∧ Quiet tx' ∧ tx'.durable = tx.durable) ∨
    (Knows tx.work l ∧ ∃ tx' Q', removeTripsLoop cid l tx = (true, tx') ∧ Quiet tx' ∧ tx'.durable = tx.durable ∧
      Inv tx'.work Q' ∧ tx'.work.collToId = tx.work.collToId ∧ tx'.work.valToId = tx.work.valToId ∧
      (tx'.work.idToVal = tx.work.idToVal ∧ tx'.work.ctr = tx.work.ctr) ∧
      ∀ d t, held tx'.work Q' d t ↔ held tx.work Q d t ∧ ¬ (d = cid ∧ t ∈ l)) := by
  induction l with
  | nil =>
    intro Q tx h hs
    exact .inr ⟨by simp [Knows], tx, Q, rfl, hs, rfl, h, rfl, rfl, ⟨rfl, rfl⟩, by simp⟩
  | cons trip l ih =>
    intro Q tx h hs
    rw [removeTripsLoop]
    simp only [getVal_eq h]
    have no : (∃ v ∈ texts trip, tx.work.valToId.get? v = none) → ¬ Knows tx.work (trip :: l) := by
      rintro ⟨v, hv, e⟩ hk
      obtain ⟨i, hi⟩ := hk trip (by simp) v hv
      rw [e] at hi; cases hi
    cases e1 : tx.work.valToId.get? trip.fst with
    | none => exact .inl ⟨no ⟨_, by simp [texts], e1⟩, tx, rfl, hs, rfl⟩
    | some fid =>
    cases e2 : tx.work.valToId.get? trip.snd with
    | none => exact .inl ⟨no ⟨_, by simp [texts], e2⟩, tx, rfl, hs, rfl⟩
    | some sid =>
    cases e3 : tx.work.valToId.get? trip.thd with
    | none => exact .inl ⟨no ⟨_, by simp [texts], e3⟩, tx, rfl, hs, rfl⟩
    | some tid =>
    dsimp only
    obtain ⟨f1, k1⟩ := h.v2i _ _ e1
    obtain ⟨f2, k2⟩ := h.v2i _ _ e2
    obtain ⟨f3, k3⟩ := h.v2i _ _ e3
    have lt : ∀ i v, tx.work.idToVal.get? i = some v → i < 2 ^ 64 := by
      intro i v hi
      obtain ⟨n, hn, hl⟩ := h.valLe i v hi
      have := h.bound n hn; omega
    have iv : Inv (delIndexes cid fid sid tid tx).work (delQ Q cid fid sid tid) := by
      rw [delIndexes_work]
      exact inv_delIndexes h cid fid sid tid hcid (lt _ _ f1) (lt _ _ f2) (lt _ _ f3)
    have q1 := delIndexes_quiet cid fid sid tid hs
    have d1 := delIndexes_durable cid fid sid tid tx
    obtain ⟨t1, t2, t3, t4⟩ := delIndexes_tables cid fid sid tid tx
    revert iv q1 d1 t1 t2 t3 t4
    generalize delIndexes cid fid sid tid tx = ty
    intro iv q1 d1 t1 t2 t3 t4
    have kn : Knows ty.work l ↔ Knows tx.work (trip :: l) := by
      unfold Knows
      rw [t1]
      constructor
      · intro hk t ht v hv
        rcases List.mem_cons.mp ht with rfl | ht
        · simp only [texts, List.mem_cons, List.not_mem_nil, or_false] at hv
          rcases hv with rfl | rfl | rfl
          · exact ⟨_, e1⟩
          · exact ⟨_, e2⟩
          · exact ⟨_, e3⟩
        · exact hk t ht v hv
      · exact fun hk t ht v hv => hk t (List.mem_cons_of_mem _ ht) v hv
    rcases ih _ ty iv q1 with ⟨hk, tx', e, q, d⟩ | ⟨hk, tx', Q', e, q, d, i, a1, a2, a3, hh⟩
    · exact .inl ⟨fun h' => hk (kn.mpr h'), tx', e, q, d.trans d1⟩
    · refine .inr ⟨kn.mp hk, tx', Q', e, q, d.trans d1, i, a1.trans t3, a2.trans t1, ⟨a3.1.trans t2, a3.2.trans t4⟩, ?_⟩
      intro x t
      rw [hh]
      have one : held ty.work (delQ Q cid fid sid tid) x t ↔ held tx.work Q x t ∧ ¬ (x = cid ∧ t = trip) := by
        unfold held
        rw [t2]
        constructor
        · rintro ⟨f, se, th, ⟨hq, hne⟩, g1, g2, g3⟩
          refine ⟨⟨f, se, th, hq, g1, g2, g3⟩, ?_⟩
          rintro ⟨rfl, rfl⟩
          apply hne
          have r1 := h.i2v _ _ k1 g1
          have r2 := h.i2v _ _ k2 g2
          have r3 := h.i2v _ _ k3 g3
          rw [e1] at r1; rw [e2] at r2; rw [e3] at r3
          cases r1; cases r2; cases r3
          exact ⟨rfl, rfl, rfl, rfl⟩
        · rintro ⟨⟨f, se, th, hq, g1, g2, g3⟩, hne⟩
          refine ⟨f, se, th, ⟨hq, ?_⟩, g1, g2, g3⟩
          rintro ⟨rfl, rfl, rfl, rfl⟩
          apply hne
          rw [f1] at g1; rw [f2] at g2; rw [f3] at g3
          refine ⟨rfl, ?_⟩
          cases t; cases trip; simp_all
      rw [one, List.mem_cons]
      constructor
      · rintro ⟨⟨h1, h2⟩, h3⟩
        refine ⟨h1, ?_⟩
        rintro ⟨rfl, rfl | h4⟩
        · exact h2 ⟨rfl, rfl⟩
        · exact h3 ⟨rfl, h4⟩
      · rintro ⟨h1, h2⟩
        exact ⟨⟨h1, fun ⟨a, b⟩ => h2 ⟨a, .inl b⟩⟩, fun ⟨a, b⟩ => h2 ⟨a, .inr b⟩⟩

theorem removeTriples_cases {s : Heed} {Q} (h : Inv s Q) (ok : Bool) (c : Str) (ts : BSet Trip) :
    (s.collToId.get? c = none ∧ removeTriplesTx ok s c ts = (.panic, Tx.begin s)) ∨
    (∃ cid, s.collToId.get? c = some cid ∧
      ((¬ Knows s ts.toList ∧ ∃ t, removeTriplesTx ok s c ts = (.panic, t) ∧ t.durable = s ∧ (∀ d ∈ t.seen, d = s)) ∨
       (Knows s ts.toList ∧ ∃ t, removeTriplesTx ok s c ts = (.ok (), t) ∧ (∀ d ∈ t.seen, d = s ∨ d = t.durable) ∧
        if ok then ∃ Q', Inv t.durable Q' ∧ t.durable.collToId = s.collToId ∧ t.durable.valToId = s.valToId ∧
          t.durable.ctr = s.ctr ∧ (∀ d x, held t.durable Q' d x ↔ held s Q d x ∧ ¬ (d = cid ∧ x ∈ ts)) else t.durable = s))) := by
  unfold removeTriplesTx
  simp only [Tx.begin, getStr_eq h]
  cases hc : s.collToId.get? c with
  | none => exact .inl ⟨rfl, rfl⟩
  | some cid =>
    obtain ⟨n, hn, hle⟩ := coll_ctr h hc
    have hcid : cid < 2 ^ 64 := Nat.lt_of_le_of_lt hle (h.bound n hn)
    refine .inr ⟨cid, rfl, ?_⟩
    dsimp only
    have hq : Quiet (⟨s, s, [s]⟩ : Tx) := by intro d hd; simpa using hd
    rcases removeTripsLoop_spec cid hcid ts.toList Q ⟨s, s, [s]⟩ h hq with
      ⟨hk, tx, e, q, d⟩ | ⟨hk, tx, Q', e, q, d, i, a1, a2, a3, hh⟩
    · left
      refine ⟨hk, tx, by rw [e], d, ?_⟩
      intro x hx; exact (q x hx).trans d
    · right
      refine ⟨hk, tx.commit ok, by rw [e], ?_, ?_⟩
      · intro x hx
        simp only [Tx.commit, List.mem_cons] at hx
        rcases hx with rfl | hx
        · exact .inr rfl
        · exact .inl ((q x hx).trans d)
      · cases ok with
        | true => exact ⟨Q', i, a1, a2, a3.2, hh⟩
        | false => exact d

end Heed
end Verif
