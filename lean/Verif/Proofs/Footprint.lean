import Verif.Spec.Footprint
import Verif.Proofs.HeedOut
/-!
# How much the LMDB store keeps
-/
namespace Verif
namespace Heed
open Spec

/-! ## Cardinalities -/

theorem nodup_map_on {α : Type u} {β : Type v} {l : List α} {f : α → β} (hl : l.Nodup)
    (hf : ∀ a ∈ l, ∀ b ∈ l, f a = f b → a = b) : (l.map f).Nodup := by
  rw [List.nodup_iff_pairwise_ne, List.pairwise_map]
  refine List.pairwise_iff_getElem.mpr ?_
  intro i j hi hj hij he
  have := hf _ (List.getElem_mem hi) _ (List.getElem_mem hj) he
  exact List.pairwise_iff_getElem.mp (List.nodup_iff_pairwise_ne.mp hl) i j hi hj hij this

theorem length_eq_of_bij {α : Type u} {β : Type v} {l : List α} {m : List β} (f : α → β) (hl : l.Nodup) (hm : m.Nodup)
    (hf : ∀ a ∈ l, ∀ b ∈ l, f a = f b → a = b) (h : ∀ y, y ∈ m ↔ ∃ x ∈ l, f x = y) : m.length = l.length := by
  have hp : (l.map f).Perm m := by
    rw [List.perm_ext_iff_of_nodup (nodup_map_on hl hf) hm]
    intro y
    rw [List.mem_map]
    exact (h y).symm
  rw [← hp.length_eq, List.length_map]

theorem length_keys {κ : Type u} {ν : Type v} [SOrd κ] (m : BMap κ ν) : m.toList.length = m.keys.length := by
  simp [BMap.keys]

/-! ## What adding triples does to the tables of values -/

theorem valueId_vals {v : Str} {st : Tx × Nat} {id tx vid} (e : valueId v st = (some id, tx, vid)) :
    ∀ i x, tx.work.idToVal.get? i = some x → st.1.work.idToVal.get? i = some x ∨ x = v := by
  unfold valueId at e
  split at e
  · cases e; exact fun _ _ h => .inl h
  · unfold inc at e
    by_cases hlt : st.2 + 1 < 2 ^ 64 <;> simp only [hlt, if_true, if_false] at e <;> cases e
    intro i x hx
    simp only [Tx.write] at hx
    rw [BMap.get?_insert] at hx
    split at hx
    · exact .inr (Option.some.inj hx).symm
    · exact .inl hx

/-- Recording a new key adds one record. -/
theorem length_insert_new {κ : Type u} {ν : Type v} [SOrd κ] [DecidableEq κ] (m : BMap κ ν) (k : κ) (v : ν) (h : m.get? k = none) :
    (m.insert k v).toList.length = m.toList.length + 1 := by
  rw [length_keys, length_keys]
  have hk : k ∉ m.keys := by rw [BMap.mem_keys_isSome, h]; simp
  have hn : (k :: m.keys).Nodup := List.nodup_cons.mpr ⟨hk, m.keys_nodup⟩
  have := length_eq_of_bij (l := k :: m.keys) (m := (m.insert k v).keys) id hn (BMap.keys_nodup _) (fun _ _ _ _ h => h) (by
    intro y
    rw [BMap.mem_keys_isSome, BMap.get?_insert]
    by_cases e : y = k
    · subst e; simp
    · simp only [e, if_false, id, exists_eq_right, List.mem_cons, false_or, BMap.mem_keys_isSome])
  rw [this, List.length_cons]

theorem length_erase_old {κ : Type u} {ν : Type v} [SOrd κ] [DecidableEq κ] (m : BMap κ ν) (k : κ) (v : ν) (h : m.get? k = some v) :
    (m.erase k).toList.length + 1 = m.toList.length := by
  rw [length_keys, length_keys]
  have hk : k ∉ (m.erase k).keys := by rw [BMap.mem_keys_isSome, BMap.get?_erase]; simp
  have hn : (k :: (m.erase k).keys).Nodup := List.nodup_cons.mpr ⟨hk, BMap.keys_nodup _⟩
  have := length_eq_of_bij (l := k :: (m.erase k).keys) (m := m.keys) id hn (BMap.keys_nodup _) (fun _ _ _ _ h => h) (by
    intro y
    simp only [id, exists_eq_right, List.mem_cons]
    rw [BMap.mem_keys_isSome, BMap.mem_keys_isSome, BMap.get?_erase]
    by_cases e : y = k
    · subst e; simp [h]
    · simp [e])
  rw [this, List.length_cons]

theorem valueId_count {v : Str} {st : Tx × Nat} {id tx vid} (hl : lmdbKey v = true) (e : valueId v st = (some id, tx, vid)) :
    vid + st.1.work.valToId.toList.length = st.2 + tx.work.valToId.toList.length := by
  unfold valueId at e
  rw [getStr_def] at e
  simp only [hl, if_true] at e
  split at e
  · cases e; rfl
  · rename_i hn
    unfold inc at e
    by_cases hlt : st.2 + 1 < 2 ^ 64 <;> simp only [hlt, if_true, if_false] at e <;> cases e
    simp only [Tx.write, putStr_def, hl, if_true]
    rw [length_insert_new _ _ _ hn]; omega

/-- Legal texts only, and as many identifiers handed out as texts recorded. -/
theorem addTrip_count {cid : Nat} {trip : Trip} {st : Tx × Nat} {tx vid} (hl : ∀ v ∈ texts trip, lmdbKey v = true)
    (e : addTrip cid trip st = (true, tx, vid)) :
    (∀ i x, tx.work.idToVal.get? i = some x → st.1.work.idToVal.get? i = some x ∨ x ∈ texts trip) ∧
    vid + st.1.work.valToId.toList.length = st.2 + tx.work.valToId.toList.length ∧ tx.work.idToColl = st.1.work.idToColl := by
  unfold addTrip at e
  rcases e1 : valueId trip.fst st with ⟨_ | fid, st1⟩ <;> rw [e1] at e <;> dsimp only at e
  · cases e
  rcases e2 : valueId trip.snd st1 with ⟨_ | sid, st2⟩ <;> rw [e2] at e <;> dsimp only at e
  · cases e
  rcases e3 : valueId trip.thd st2 with ⟨_ | tid, tx3, v3⟩ <;> rw [e3] at e <;> dsimp only at e
  · cases e
  obtain ⟨t1, w1⟩ := st1
  obtain ⟨t2, w2⟩ := st2
  have a1 := valueId_vals e1
  have a2 := valueId_vals e2
  have a3 := valueId_vals e3
  have b1 := valueId_count (hl _ (by simp [texts])) e1
  have b2 := valueId_count (hl _ (by simp [texts])) e2
  have b3 := valueId_count (hl _ (by simp [texts])) e3
  have c : ∀ {v : Str} {st : Tx × Nat} {id tx vid}, valueId v st = (some id, tx, vid) → tx.work.idToColl = st.1.work.idToColl := by
    intro v st id tx vid e
    unfold valueId at e
    split at e
    · cases e; rfl
    · unfold inc at e
      by_cases hlt : st.2 + 1 < 2 ^ 64 <;> simp only [hlt, if_true, if_false] at e <;> cases e
      rfl
  cases e
  dsimp only at a2 a3 b2 b3
  refine ⟨?_, ?_, ?_⟩
  · intro i x hx
    have hx : tx3.work.idToVal.get? i = some x := hx
    rcases a3 i x hx with h | rfl
    · rcases a2 i x h with h | rfl
      · rcases a1 i x h with h | rfl
        · exact .inl h
        · simp [texts]
      · simp [texts]
    · simp [texts]
  · show _ = st.2 + tx3.work.valToId.toList.length
    omega
  · show tx3.work.idToColl = _
    rw [c e3, c e2, c e1]

theorem addTripsLoop_count {cid : Nat} (l : List Trip) : ∀ {st : Tx × Nat} {tx vid},
    (∀ t ∈ l, ∀ v ∈ texts t, lmdbKey v = true) → addTripsLoop cid l st = (true, tx, vid) →
    (∀ i x, tx.work.idToVal.get? i = some x → st.1.work.idToVal.get? i = some x ∨ x ∈ l.flatMap texts) ∧
    vid + st.1.work.valToId.toList.length = st.2 + tx.work.valToId.toList.length ∧ tx.work.idToColl = st.1.work.idToColl := by
  induction l with
  | nil => intro st tx vid _ e; cases e; exact ⟨fun _ _ h => .inl h, rfl, rfl⟩
  | cons trip l ih =>
    intro st tx vid hl e
    rw [addTripsLoop] at e
    rcases e1 : addTrip cid trip st with ⟨_ | _, t1, v1⟩ <;> rw [e1] at e <;> dsimp only at e
    · cases e
    obtain ⟨a1, b1, c1⟩ := addTrip_count (hl trip (by simp)) e1
    obtain ⟨a2, b2, c2⟩ := ih (fun t ht => hl t (by simp [ht])) e
    dsimp only at a2 b2 c2
    refine ⟨?_, by omega, c2.trans c1⟩
    intro i x hx
    rw [List.flatMap_cons, List.mem_append]
    rcases a2 i x hx with h | h
    · rcases a1 i x h with h | h
      · exact .inl h
      · exact .inr (.inl h)
    · exact .inr (.inr h)

theorem addTriples_count {s : Heed} {c : Str} {ts : BSet Trip} {t : Tx} (h : Good s)
    (hl : ∀ x ∈ ts, ∀ v ∈ tripTexts x, lmdbKey v = true) (e : addTriplesTx true s c ts = (.ok (), t)) :
    (∀ i x, t.durable.idToVal.get? i = some x → s.idToVal.get? i = some x ∨ lmdbKey x = true) ∧
    used t.durable + s.valToId.toList.length = used s + t.durable.valToId.toList.length ∧ t.durable.idToColl = s.idToColl := by
  unfold addTriplesTx at e
  simp only [Tx.begin, getStr_eq h] at e
  cases hc : s.collToId.get? c with
  | none => rw [hc] at e; cases e
  | some cid =>
    obtain ⟨n, hn, hle⟩ := coll_ctr h hc
    simp only [hc, hn] at e
    have hq : Quiet (⟨s, s, [s]⟩ : Tx) := by intro d hd; simpa using hd
    rcases addTripsLoop_spec cid ts.toList (quads s) (⟨s, s, [s]⟩, n) h hn hq hle with
      ⟨st', e', _⟩ | ⟨tx, vid, Q', e', q, d, i, c', m, g, hh⟩
    · rw [e'] at e; cases e
    rw [e'] at e; cases e
    obtain ⟨a, b, d⟩ := addTripsLoop_count ts.toList (fun t ht => hl t ht) e'
    dsimp only at a b d
    refine ⟨?_, ?_, d⟩
    · intro i x hx
      rcases a i x hx with h | h
      · exact .inl h
      · obtain ⟨t, ht, hv⟩ := List.mem_flatMap.mp h
        exact .inr (hl t ht x hv)
    · simp only [Tx.commit, if_true, used, hn, c']; omega

/-! ## The count of an index -/

/-- Legal texts and names only; the identifiers of both tables are each other's inverse. -/
structure Clean (s : Heed) : Prop where
  good : Good s
  vals : ∀ i v, s.idToVal.get? i = some v → lmdbKey v = true
  i2c : ∀ i c, s.idToColl.get? i = some c → s.collToId.get? c = some i

/-- The identifier recorded for a text. -/
def vid (s : Heed) (v : Str) : Nat := (s.valToId.get? v).getD 0

/-- The triples under identifiers of no listed collection. -/
structure Dead (s : Heed) (D : List (Nat × Trip)) : Prop where
  nodup : D.Nodup
  mem : ∀ d t, (d, t) ∈ D ↔ held s (quads s) d t ∧ ∀ c, s.collToId.get? c ≠ some d

theorem Clean.vid {s : Heed} (h : Clean s) {i v} (e : s.idToVal.get? i = some v) : Heed.vid s v = i := by
  simp [Heed.vid, h.good.i2v v i (h.vals i v e) e]

/-- All the triples under any identifier, in any order, are as many as the records of an index. -/
theorem Clean.index {s : Heed} (h : Clean s) {G : List (Nat × Trip)} (hG : G.Nodup)
    (hm : ∀ d t, (d, t) ∈ G ↔ held s (quads s) d t) (S : BSet (List UInt8)) (enc : Nat → Nat → Nat → Nat → List UInt8)
    (hS : ∀ k, k ∈ S ↔ ∃ a b c d, quads s a b c d ∧ k = enc a b c d)
    (inj : ∀ a b c d a' b' c' d', quads s a b c d → quads s a' b' c' d' → enc a b c d = enc a' b' c' d' →
      a = a' ∧ b = b' ∧ c = c' ∧ d = d') : S.toList.length = G.length := by
  have hq : ∀ d t, held s (quads s) d t → quads s d (Heed.vid s t.fst) (Heed.vid s t.snd) (Heed.vid s t.thd) ∧
      s.idToVal.get? (Heed.vid s t.fst) = some t.fst ∧ s.idToVal.get? (Heed.vid s t.snd) = some t.snd ∧
      s.idToVal.get? (Heed.vid s t.thd) = some t.thd := by
    rintro d t ⟨f, se, th, q, e1, e2, e3⟩
    rw [h.vid e1, h.vid e2, h.vid e3]
    exact ⟨q, e1, e2, e3⟩
  refine length_eq_of_bij (fun p : Nat × Trip => enc p.1 (Heed.vid s p.2.fst) (Heed.vid s p.2.snd) (Heed.vid s p.2.thd)) hG S.nodup
    ?_ ?_
  · rintro ⟨d, t⟩ ha ⟨d', t'⟩ hb e
    obtain ⟨q, e1, e2, e3⟩ := hq d t ((hm d t).mp ha)
    obtain ⟨q', e1', e2', e3'⟩ := hq d' t' ((hm d' t').mp hb)
    obtain ⟨rfl, r1, r2, r3⟩ := inj _ _ _ _ _ _ _ _ q q' e
    rw [r1, e1'] at e1; rw [r2, e2'] at e2; rw [r3, e3'] at e3
    cases t; cases t'; simp_all
  · intro k
    show k ∈ S ↔ _
    rw [hS]
    constructor
    · rintro ⟨a, b, c, d, q, rfl⟩
      obtain ⟨⟨v1, h1⟩, ⟨v2, h2⟩, ⟨v3, h3⟩⟩ := h.good.qVal _ _ _ _ q
      refine ⟨(a, ⟨v1, v2, v3⟩), (hm _ _).mpr ⟨b, c, d, q, h1, h2, h3⟩, ?_⟩
      simp only [h.vid h1, h.vid h2, h.vid h3]
    · rintro ⟨⟨d, t⟩, ha, rfl⟩
      obtain ⟨q, _⟩ := hq d t ((hm d t).mp ha)
      exact ⟨_, _, _, _, q, rfl⟩

/-- The triples the store shows, with the identifiers of their collections. -/
def live (s : Heed) (l : List Str) : List (Nat × Trip) :=
  l.flatMap fun c =>
    match s.collToId.get? c, triples s c with
    | some i, .ok ts => ts.toList.map fun t => (i, t)
    | _, _ => []

theorem mem_live {s : Heed} (h : Good s) (l : List Str) (d : Nat) (t : Trip) :
    (d, t) ∈ live s l ↔ ∃ c ∈ l, s.collToId.get? c = some d ∧ held s (quads s) d t := by
  unfold live
  rw [List.mem_flatMap]
  refine exists_congr fun c => and_congr_right fun _ => ?_
  cases hc : s.collToId.get? c with
  | none => simp
  | some i =>
    obtain ⟨ts, e, hts⟩ := triples_ok h (c := c) (p := held s (quads s) i) (by simp [world, hc])
    rw [e]
    simp only [List.mem_map, Prod.mk.injEq, Option.some.injEq]
    constructor
    · rintro ⟨t', h1, rfl, rfl⟩; exact ⟨rfl, (hts _).mp h1⟩
    · rintro ⟨rfl, h1⟩; exact ⟨t, (hts _).mpr h1, rfl, rfl⟩

theorem nodup_live {s : Heed} (h : Good s) : ∀ l : List Str, l.Nodup → (live s l).Nodup
  | [], _ => by simp [live]
  | c :: l, hn => by
    rw [List.nodup_cons] at hn
    have e : live s (c :: l) = live s [c] ++ live s l := by simp [live]
    rw [e, List.nodup_append]
    refine ⟨?_, nodup_live h l hn.2, ?_⟩
    · simp only [live, List.flatMap_cons, List.flatMap_nil, List.append_nil]
      split
      · rename_i i ts _ _
        exact nodup_map_on ts.nodup (fun a _ b _ e => (Prod.mk.inj e).2)
      · simp
    · rintro ⟨d, t⟩ h1 ⟨d', t'⟩ h2 e
      cases e
      obtain ⟨c1, m1, e1, _⟩ := (mem_live h _ _ _).mp h1
      obtain ⟨c2, m2, e2, _⟩ := (mem_live h _ _ _).mp h2
      simp only [List.mem_singleton] at m1
      have := coll_inj h e1 e2 rfl
      subst m1 this
      exact hn.1 m2

theorem length_live {s : Heed} (l : List Str) (hl : ∀ c ∈ l, (s.collToId.get? c).isSome) :
    (live s l).length = (l.map (sizeIn ops s)).sum := by
  induction l with
  | nil => rfl
  | cons c l ih =>
    have e : live s (c :: l) = live s [c] ++ live s l := by simp [live]
    rw [e, List.length_append, ih (fun d hd => hl d (by simp [hd])), List.map_cons, List.sum_cons]
    congr 1
    have := hl c (by simp)
    cases hc : s.collToId.get? c with
    | none => rw [hc] at this; cases this
    | some i =>
      simp only [live, List.flatMap_cons, List.flatMap_nil, List.append_nil, hc, sizeIn]
      show _ = match triples s c with | .ok ts => _ | _ => 0
      cases triples s c <;> simp

theorem shown_eq (s : Heed) : shown ops s = (s.collToId.keys.map (sizeIn ops s)).sum := rfl

/-- Each index has one record per triple shown and per triple under a dead identifier. -/
theorem Clean.index_len {s : Heed} (h : Clean s) {D} (hd : Dead s D) (S : BSet (List UInt8)) (enc : Nat → Nat → Nat → Nat → List UInt8)
    (hS : ∀ k, k ∈ S ↔ ∃ a b c d, quads s a b c d ∧ k = enc a b c d)
    (inj : ∀ a b c d a' b' c' d', quads s a b c d → quads s a' b' c' d' → enc a b c d = enc a' b' c' d' →
      a = a' ∧ b = b' ∧ c = c' ∧ d = d') : S.toList.length = shown ops s + D.length := by
  rw [h.index (G := live s s.collToId.keys ++ D) ?_ ?_ S enc hS inj, List.length_append, length_live, shown_eq]
  · intro c hc; exact BMap.mem_keys_isSome.mp hc
  · rw [List.nodup_append]
    refine ⟨nodup_live h.good _ (BMap.keys_nodup _), hd.nodup, ?_⟩
    rintro ⟨d, t⟩ h1 _ h2 rfl
    obtain ⟨c, _, e, _⟩ := (mem_live h.good _ _ _).mp h1
    exact ((hd.mem d t).mp h2).2 c e
  · intro d t
    rw [List.mem_append, mem_live h.good, hd.mem]
    constructor
    · rintro (⟨_, _, _, h⟩ | ⟨h, _⟩) <;> exact h
    · intro hh
      rcases Classical.em (∃ c, s.collToId.get? c = some d) with ⟨c, e⟩ | hn
      · exact .inl ⟨c, BMap.mem_keys.mpr ⟨d, e⟩, e, hh⟩
      · exact .inr ⟨hh, fun c e => hn ⟨c, e⟩⟩

theorem Clean.six {s : Heed} (h : Clean s) {D} (hd : Dead s D) :
    s.cfst.toList.length + s.cfts.toList.length + s.csft.toList.length + s.cstf.toList.length + s.ctfs.toList.length +
      s.ctsf.toList.length = 6 * (shown ops s + D.length) := by
  have L := fun {a b c d} (q : quads s a b c d) => h.good.lt q
  have l1 := h.index_len hd s.cfst (fun c f s t => key c f s t) h.good.cfst (by
    intro a b c d a' b' c' d' q q' e
    obtain ⟨x1, x2, x3, x4⟩ := L q; obtain ⟨y1, y2, y3, y4⟩ := L q'
    obtain ⟨r1, r2, r3, r4⟩ := key_inj x1 x2 x3 x4 y1 y2 y3 y4 e; exact ⟨r1, r2, r3, r4⟩)
  have l2 := h.index_len hd s.cfts (fun c f s t => key c f t s) h.good.cfts (by
    intro a b c d a' b' c' d' q q' e
    obtain ⟨x1, x2, x3, x4⟩ := L q; obtain ⟨y1, y2, y3, y4⟩ := L q'
    obtain ⟨r1, r2, r3, r4⟩ := key_inj x1 x2 x4 x3 y1 y2 y4 y3 e; exact ⟨r1, r2, r4, r3⟩)
  have l3 := h.index_len hd s.csft (fun c f s t => key c s f t) h.good.csft (by
    intro a b c d a' b' c' d' q q' e
    obtain ⟨x1, x2, x3, x4⟩ := L q; obtain ⟨y1, y2, y3, y4⟩ := L q'
    obtain ⟨r1, r2, r3, r4⟩ := key_inj x1 x3 x2 x4 y1 y3 y2 y4 e; exact ⟨r1, r3, r2, r4⟩)
  have l4 := h.index_len hd s.cstf (fun c f s t => key c s t f) h.good.cstf (by
    intro a b c d a' b' c' d' q q' e
    obtain ⟨x1, x2, x3, x4⟩ := L q; obtain ⟨y1, y2, y3, y4⟩ := L q'
    obtain ⟨r1, r2, r3, r4⟩ := key_inj x1 x3 x4 x2 y1 y3 y4 y2 e; exact ⟨r1, r4, r2, r3⟩)
  have l5 := h.index_len hd s.ctfs (fun c f s t => key c t f s) h.good.ctfs (by
    intro a b c d a' b' c' d' q q' e
    obtain ⟨x1, x2, x3, x4⟩ := L q; obtain ⟨y1, y2, y3, y4⟩ := L q'
    obtain ⟨r1, r2, r3, r4⟩ := key_inj x1 x4 x2 x3 y1 y4 y2 y3 e; exact ⟨r1, r3, r4, r2⟩)
  have l6 := h.index_len hd s.ctsf (fun c f s t => key c t s f) h.good.ctsf (by
    intro a b c d a' b' c' d' q q' e
    obtain ⟨x1, x2, x3, x4⟩ := L q; obtain ⟨y1, y2, y3, y4⟩ := L q'
    obtain ⟨r1, r2, r3, r4⟩ := key_inj x1 x4 x3 x2 y1 y4 y3 y2 e; exact ⟨r1, r4, r3, r2⟩)
  omega

theorem Clean.vals_len {s : Heed} (h : Clean s) : s.idToVal.toList.length = s.valToId.toList.length := by
  rw [length_keys, length_keys]
  refine length_eq_of_bij (Heed.vid s) (BMap.keys_nodup _) (BMap.keys_nodup _) ?_ ?_
  · intro a ha b hb e
    obtain ⟨i, hi⟩ := BMap.mem_keys.mp ha
    obtain ⟨j, hj⟩ := BMap.mem_keys.mp hb
    have h1 := (h.good.v2i a i hi).1
    have h2 := (h.good.v2i b j hj).1
    rw [h.vid h1, h.vid h2] at e
    subst e
    rw [h1] at h2; exact Option.some.inj h2
  · intro i
    rw [BMap.mem_keys]
    constructor
    · rintro ⟨v, hv⟩
      exact ⟨v, BMap.mem_keys.mpr ⟨i, h.good.i2v v i (h.vals i v hv) hv⟩, h.vid hv⟩
    · rintro ⟨v, hv, rfl⟩
      obtain ⟨j, hj⟩ := BMap.mem_keys.mp hv
      have h1 := (h.good.v2i v j hj).1
      exact ⟨v, by rw [h.vid h1]; exact h1⟩

theorem Clean.colls_len {s : Heed} (h : Clean s) : s.idToColl.toList.length = s.collToId.toList.length := by
  rw [length_keys, length_keys]
  refine length_eq_of_bij (fun c => (s.collToId.get? c).getD 0) (BMap.keys_nodup _) (BMap.keys_nodup _) ?_ ?_
  · intro a ha b hb e
    obtain ⟨i, hi⟩ := BMap.mem_keys.mp ha
    obtain ⟨j, hj⟩ := BMap.mem_keys.mp hb
    simp only [hi, hj, Option.getD_some] at e
    exact (coll_inj h.good hi hj e.symm).symm
  · intro i
    rw [BMap.mem_keys]
    constructor
    · rintro ⟨c, hc⟩
      exact ⟨c, BMap.mem_keys.mpr ⟨i, h.i2c i c hc⟩, by simp [h.i2c i c hc]⟩
    · rintro ⟨c, hc, rfl⟩
      obtain ⟨j, hj⟩ := BMap.mem_keys.mp hc
      exact ⟨c, by simp only [hj, Option.getD_some]; exact (h.good.c2i c j hj).1⟩

end Heed
end Verif
