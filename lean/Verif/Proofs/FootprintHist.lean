import Verif.Proofs.Footprint
/-!
# How much the LMDB store keeps: histories
-/
namespace Verif
namespace Heed
open Spec

theorem legalIn_op {op : Op} (h : LegalIn op) : LegalOp op := by
  cases op <;> simp_all [LegalIn, LegalOp]

theorem clean_new : Clean new := ⟨good_new, by simp [new], by simp [new]⟩

theorem dead_new : Dead new [] := ⟨by simp, by
  intro d t
  simp only [List.not_mem_nil, false_iff, not_and]
  rintro ⟨f, se, th, q, _⟩
  exact absurd q.2.2.2.2 (BSet.not_mem_empty _)⟩

/-- What one operation adds to the triples under dead identifiers. -/
def orphanedBy (s : Heed) (op : Op) : Nat :=
  match op, (exec ops s op).1 with
  | .removeCollection c, .ok _ => sizeIn ops s c
  | _, _ => 0

/-- Whether it creates a collection. -/
def createdBy (s : Heed) (op : Op) : Nat :=
  match op, (exec ops s op).1 with
  | .addCollection c, .ok _ => if listedB ops s c then 0 else 1
  | _, _ => 0

theorem orphaned_cons (s : Heed) (op : Op) (l : List Op) :
    orphaned ops s (op :: l) = orphanedBy s op + orphaned ops (exec ops s op).2 l := rfl

theorem created_cons (s : Heed) (op : Op) (l : List Op) :
    created ops s (op :: l) = createdBy s op + created ops (exec ops s op).2 l := rfl

theorem listedB_eq (s : Heed) (c : Str) : listedB ops s c = (s.collToId.get? c).isSome := by
  rw [Bool.eq_iff_iff, ← BMap.mem_keys_isSome]
  show s.collToId.keys.contains c = true ↔ _
  simp

/-- Held triples are the same under every identifier but one, which belongs to a listed collection. -/
theorem Dead.of_held {s s' : Heed} {D} (hd : Dead s D) (hc : s'.collToId = s.collToId) {c : Str} {cid : Nat}
    (hi : s.collToId.get? c = some cid) (h : ∀ d t, d ≠ cid → (held s' (quads s') d t ↔ held s (quads s) d t)) : Dead s' D where
  nodup := hd.nodup
  mem d t := by
    rw [hd.mem, hc]
    by_cases e : d = cid
    · subst e
      exact ⟨fun h => absurd hi (h.2 c), fun h => absurd hi (h.2 c)⟩
    · rw [h d t e]

theorem sizeIn_eq {s : Heed} (h : Good s) {c : Str} {i : Nat} (hc : s.collToId.get? c = some i) :
    ∃ ts : BSet Trip, sizeIn ops s c = ts.toList.length ∧ ∀ t, t ∈ ts ↔ held s (quads s) i t := by
  obtain ⟨ts, e, hts⟩ := triples_ok h (c := c) (p := held s (quads s) i) (by simp [world, hc])
  refine ⟨ts, ?_, hts⟩
  show (match triples s c with | .ok ts => _ | _ => 0) = _
  rw [e]

theorem clean_step {s : Heed} (h : Clean s) {D} (hd : Dead s D) {op : Op} (hl : LegalIn op) :
    Clean (exec ops s op).2 ∧ (∃ D', Dead (exec ops s op).2 D' ∧ D'.length = D.length + orphanedBy s op) ∧
    used (exec ops s op).2 + s.valToId.toList.length = used s + (exec ops s op).2.valToId.toList.length + createdBy s op := by
  have eo := exec_eq true s op
  obtain ⟨_, hsame, _, hg, _⟩ := exec_spec h.good true op
  have quiet : (execTx true s op).1 ≠ .ok () → Clean (exec ops s op).2 ∧
      (∃ D', Dead (exec ops s op).2 D' ∧ D'.length = D.length + orphanedBy s op) ∧
      used (exec ops s op).2 + s.valToId.toList.length = used s + (exec ops s op).2.valToId.toList.length + createdBy s op := by
    intro hne
    have e2 : (exec ops s op).2 = s := by unfold ops; rw [eo]; exact hsame hne
    have e1 : (exec ops s op).1 = (execTx true s op).1 := by unfold ops; rw [eo]
    have o0 : orphanedBy s op = 0 := by
      unfold orphanedBy; rw [e1]
      split
      · rename_i e; exact absurd e hne
      · rfl
    have c0 : createdBy s op = 0 := by
      unfold createdBy; rw [e1]
      split
      · rename_i e; exact absurd e hne
      · rfl
    rw [e2, o0, c0]
    exact ⟨h, ⟨D, hd, rfl⟩, rfl⟩
  by_cases hok : (execTx true s op).1 = .ok ()
  case neg => exact quiet hok
  have e2 : (exec ops s op).2 = (execTx true s op).2.durable := by unfold ops; rw [eo]
  have e1 : (exec ops s op).1 = .ok () := by unfold ops; rw [eo]; exact hok
  rw [e2]
  cases op with
  | addCollection c =>
    have o0 : orphanedBy s (.addCollection c) = 0 := rfl
    have c0 : createdBy s (.addCollection c) = if (s.collToId.get? c).isSome then 0 else 1 := by
      unfold createdBy; rw [e1]; dsimp only; rw [listedB_eq]
    rw [o0, c0]
    simp only [execTx] at *
    rcases addCollection_cases h.good true c with ⟨⟨i, hi⟩, e⟩ | ⟨hc, hex, e⟩ | ⟨hc, hex, i, hi, hgt, t, e, _, hd'⟩
    · rw [e, hi]; exact ⟨h, ⟨D, hd, rfl⟩, rfl⟩
    · rw [e] at hok; cases hok
    · simp only [if_true] at hd'
      have hb : used t.durable = used s + 1 := by
        have hd2 := hd'
        unfold addCollectionTx at e
        simp only [Tx.begin, getStr_eq h.good, hc] at e
        cases hn : s.ctr with
        | none =>
          simp only [hn] at e
          cases e
          simp [Tx.write, Tx.commit, used, hn]
        | some n =>
          simp only [hn, inc] at e
          by_cases hlt : n + 1 < 2 ^ 64 <;> simp only [hlt, if_true, if_false] at e <;> cases e
          simp [Tx.write, Tx.commit, used, hn]
      rw [e, hc]; dsimp only
      rw [e] at hg; dsimp only at hg
      have hk : lmdbKey c = true := hl
      have hq : quads t.durable = quads s := by rw [hd']; rfl
      refine ⟨⟨hg, ?_, ?_⟩, ⟨D, ⟨hd.nodup, ?_⟩, rfl⟩, ?_⟩
      · rw [hd']; exact h.vals
      · rw [hd']
        intro j x hx
        simp only [putStr_def, hk, if_true] at hx ⊢
        rw [BMap.get?_insert] at hx
        split at hx
        · rename_i ej; cases hx; subst ej; exact BMap.get?_insert_self _ _ _
        · have := h.i2c j x hx
          have hne : x ≠ c := by rintro rfl; rw [hc] at this; cases this
          rw [BMap.get?_insert_ne _ _ hne]; exact this
      · intro d x
        rw [hd.mem, hq, hd']
        simp only [held, putStr_def, hk, if_true]
        constructor
        · rintro ⟨hh, hno⟩
          refine ⟨hh, ?_⟩
          intro c' hc'
          rw [BMap.get?_insert] at hc'
          split at hc'
          · cases hc'
            obtain ⟨_, _, _, q, _⟩ := hh
            obtain ⟨n, hn, hle⟩ := h.good.qLe _ _ _ _ q
            have := hgt n hn; omega
          · exact hno c' hc'
        · rintro ⟨hh, hno⟩
          refine ⟨hh, ?_⟩
          intro c' hc'
          apply hno c'
          have hne : c' ≠ c := by rintro rfl; rw [hc] at hc'; cases hc'
          rw [BMap.get?_insert_ne _ _ hne]; exact hc'
      · have : t.durable.valToId = s.valToId := by rw [hd']
        rw [this, hb]; simp; omega
  | removeCollection c =>
    have c0 : createdBy s (.removeCollection c) = 0 := rfl
    have o0 : orphanedBy s (.removeCollection c) = sizeIn ops s c := by unfold orphanedBy; rw [e1]
    rw [c0, o0]
    simp only [execTx] at *
    rcases removeCollection_cases h.good true c with ⟨hc, e⟩ | ⟨i, hi, t, e, _, hd'⟩
    · rw [e] at hok; cases hok
    · simp only [if_true] at hd'
      rw [e]; dsimp only
      rw [e] at hg; dsimp only at hg
      have hq : quads t.durable = quads s := by rw [hd']; rfl
      obtain ⟨ts, hts, hmem⟩ := sizeIn_eq h.good hi
      refine ⟨⟨hg, by rw [hd']; exact h.vals, ?_⟩, ⟨D ++ ts.toList.map (fun t => (i, t)), ⟨?_, ?_⟩, ?_⟩, ?_⟩
      · rw [hd']
        intro j x hx
        simp only at hx ⊢
        rw [BMap.get?_erase] at hx
        split at hx
        · cases hx
        · rename_i hj
          have := h.i2c j x hx
          have hne : x ≠ c := by rintro rfl; rw [hi] at this; cases this; exact hj rfl
          rw [BMap.get?_erase_ne _ hne]; exact this
      · rw [List.nodup_append]
        refine ⟨hd.nodup, nodup_map_on ts.nodup (fun a _ b _ e => (Prod.mk.inj e).2), ?_⟩
        rintro ⟨d, x⟩ h1 _ h2 rfl
        obtain ⟨x', _, e'⟩ := List.mem_map.mp h2
        cases e'
        exact ((hd.mem _ _).mp h1).2 c hi
      · intro d x
        rw [List.mem_append, hd.mem, hq, hd']
        simp only [List.mem_map, Prod.mk.injEq]
        show _ ↔ held s (quads s) d x ∧ _
        constructor
        · rintro (⟨hh, hno⟩ | ⟨x', hx', rfl, rfl⟩)
          · refine ⟨hh, fun c' hc' => ?_⟩
            rw [BMap.get?_erase] at hc'
            split at hc'
            · cases hc'
            · exact hno c' hc'
          · refine ⟨(hmem _).mp hx', fun c' hc' => ?_⟩
            rw [BMap.get?_erase] at hc'
            split at hc'
            · cases hc'
            · rename_i hne
              exact hne (coll_inj h.good hi hc' rfl)
        · rintro ⟨hh, hno⟩
          by_cases ed : d = i
          · subst ed; exact .inr ⟨x, (hmem x).mpr hh, rfl, rfl⟩
          · refine .inl ⟨hh, fun c' hc' => ?_⟩
            have hne : c' ≠ c := by rintro rfl; rw [hi] at hc'; exact ed (Option.some.inj hc').symm
            exact hno c' (by rw [BMap.get?_erase_ne _ hne]; exact hc')
      · rw [List.length_append, List.length_map, hts]
      · have h1 : t.durable.valToId = s.valToId := by rw [hd']
        have h2 : used t.durable = used s := by rw [hd']; rfl
        rw [h1, h2]; omega
  | addTriples c ts =>
    have c0 : createdBy s (.addTriples c ts) = 0 := rfl
    have o0 : orphanedBy s (.addTriples c ts) = 0 := rfl
    rw [c0, o0]
    simp only [execTx] at *
    rcases addTriples_cases h.good true c ts with ⟨hc, e⟩ | ⟨cid, hi, ⟨t, e, _⟩ | ⟨t, e, hseen, hd'⟩⟩
    · rw [e] at hok; cases hok
    · rw [e] at hok; cases hok
    · simp only [if_true] at hd'
      obtain ⟨Q', hinv, g, _, hh⟩ := hd'
      obtain ⟨a, b, d⟩ := addTriples_count h.good hl e
      rw [e]; dsimp only
      have := hinv.quads_eq; subst this
      refine ⟨⟨hinv, ?_, ?_⟩, ⟨D, hd.of_held g.coll hi ?_, rfl⟩, b⟩
      · intro i v hv
        rcases a i v hv with h1 | h1
        · exact h.vals i v h1
        · exact h1
      · rw [d, g.coll]; exact h.i2c
      · intro x t' hne; rw [hh]; simp [hne]
  | removeTriples c ts =>
    have c0 : createdBy s (.removeTriples c ts) = 0 := rfl
    have o0 : orphanedBy s (.removeTriples c ts) = 0 := rfl
    rw [c0, o0]
    simp only [execTx] at *
    rcases removeTriples_cases h.good true c ts with ⟨hc, e⟩ | ⟨cid, hi, ⟨_, t, e, _⟩ | ⟨_, t, e, hseen, hd'⟩⟩
    · rw [e] at hok; cases hok
    · rw [e] at hok; cases hok
    · simp only [if_true] at hd'
      obtain ⟨Q', hinv, hcoll, hval, hctr, hh⟩ := hd'
      have hf := fresh_exec h.good true (.removeTriples c ts)
      simp only [execTx] at hf
      rw [e]; rw [e] at hf
      dsimp only at hf ⊢
      have hkeep : ∀ n, t.durable.ctr = some n → ¬ n < 0 := by intros; omega
      have := hinv.quads_eq; subst this
      refine ⟨⟨hinv, ?_, ?_⟩, ⟨D, hd.of_held hcoll hi ?_, rfl⟩, ?_⟩
      · intro i v hv
        rcases hf.val i v hv with h1 | h1
        · exact h.vals i v h1
        · obtain ⟨n, hn, hle⟩ := hinv.valLe i v hv
          have := h1 n (hctr ▸ hn); omega
      · intro i v hv
        rw [hcoll]
        rcases hf.coll i v hv with h1 | h1
        · exact h.i2c i v h1
        · obtain ⟨n, hn, hle⟩ := hinv.collLe i v hv
          have := h1 n (hctr ▸ hn); omega
      · intro x t' hne; rw [hh]; simp [hne]
      · rw [hval]; simp only [used, hctr]; omega

/-- After any history of legal names and texts. -/
theorem clean_runOps (l : List Op) : ∀ (s : Heed) (D : List (Nat × Trip)), Clean s → Dead s D → (∀ op ∈ l, LegalIn op) →
    Clean (runOps ops s l).2 ∧ (∃ D', Dead (runOps ops s l).2 D' ∧ D'.length = D.length + orphaned ops s l) ∧
    used (runOps ops s l).2 + s.valToId.toList.length =
      used s + (runOps ops s l).2.valToId.toList.length + created ops s l := by
  induction l with
  | nil => intro s D h hd _; exact ⟨h, ⟨D, hd, rfl⟩, rfl⟩
  | cons op l ih =>
    intro s D h hd hl
    obtain ⟨h1, ⟨D1, hd1, e1⟩, c1⟩ := clean_step h hd (hl op (by simp))
    obtain ⟨h2, ⟨D2, hd2, e2⟩, c2⟩ := ih _ D1 h1 hd1 (fun o ho => hl o (by simp [ho]))
    rw [orphaned_cons, created_cons]
    simp only [runOps]
    exact ⟨h2, ⟨D2, hd2, by omega⟩, by omega⟩

theorem mem_storedTexts {h : List Event} {v : Str} :
    v ∈ storedTexts h ↔ ∃ c ts, (Op.addTriples c ts, Res.ok ()) ∈ h ∧ ∃ t ∈ ts, v ∈ tripTexts t := by
  unfold storedTexts
  rw [BSet.mem_ofList, List.mem_flatMap]
  constructor
  · rintro ⟨⟨op, r⟩, hm, hv⟩
    split at hv
    · rename_i c ts u e
      cases e; cases u
      rw [List.mem_flatMap] at hv
      exact ⟨c, ts, hm, hv⟩
    · simp at hv
  · rintro ⟨c, ts, hm, t, ht, hv⟩
    exact ⟨_, hm, List.mem_flatMap.mpr ⟨t, ht, hv⟩⟩

theorem events_ops (T : TripsOps σ) (l : List Op) : ∀ (s : σ) (e : Event), e ∈ (runOps T s l).1 → e.1 ∈ l := by
  induction l with
  | nil => intro s e he; simp [runOps] at he
  | cons op l ih =>
    intro s e he
    simp only [runOps, List.mem_cons] at he ⊢
    rcases he with rfl | he
    · exact .inl rfl
    · exact .inr (ih _ _ he)

/-- The texts on record are those of acknowledged additions. -/
theorem texts_len (l : List Op) (hl : ∀ op ∈ l, LegalIn op) :
    (runOps ops new l).2.valToId.toList.length = (storedTexts (runOps ops new l).1).toList.length := by
  rw [length_keys]
  refine length_eq_of_bij id (BSet.nodup _) (BMap.keys_nodup _) (fun _ _ _ _ h => h) ?_
  intro v
  simp only [id, exists_eq_right]
  rw [BMap.mem_keys]
  have := known_runOps l new good_new v
  unfold KnowsText at this
  rw [this]
  show _ ↔ v ∈ storedTexts _
  rw [mem_storedTexts]
  simp only [new, StoredBy]
  constructor
  · rintro (⟨i, h⟩ | ⟨_, h⟩)
    · cases h
    · exact h
  · rintro ⟨c, ts, hm, t, ht, hv⟩
    exact .inr ⟨hl _ (events_ops ops l _ _ hm) t ht v hv, c, ts, hm, t, ht, hv⟩

end Heed
end Verif
