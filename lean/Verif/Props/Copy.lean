import Verif.Proofs.Copy
/-!
# C90: copying what a store shows into a new store
-/
namespace Verif
namespace Props
open Spec Copy

/-- Two collections that share texts. -/
def copySample : List (Str × BSet Trip) :=
  [(lit "a", BSet.ofList [⟨lit "x", lit "y", lit "z"⟩, ⟨lit "x", lit "y", lit "x"⟩]), (lit "b", BSet.ofList [⟨lit "x", lit "x", lit "w"⟩])]

theorem copySample_ok : (copySample.map Prod.fst).Nodup ∧ (∀ p ∈ copySample, Heed.lmdbKey p.1 = true) ∧
    (∀ v ∈ textsIn copySample, Heed.lmdbKey v = true) ∧ copySample.length + 3 * tripCount copySample ≤ 2 ^ 64 := by
  refine ⟨by decide +kernel, ?_, ?_, by decide +kernel⟩
  · intro p hp
    simp only [copySample, List.mem_cons, List.not_mem_nil, or_false] at hp
    rcases hp with rfl | rfl <;> decide
  · intro v hv
    have : v ∈ [lit "w", lit "x", lit "y", lit "z"] := by
      have e : (textsIn copySample).toList = [lit "w", lit "x", lit "y", lit "z"] := by decide +kernel
      rw [← e]; exact hv
    simp only [List.mem_cons, List.not_mem_nil, or_false] at this
    rcases this with rfl | rfl | rfl | rfl <;> decide

theorem legal_copy {cs : List (Str × BSet Trip)} (hk : ∀ p ∈ cs, Heed.lmdbKey p.1 = true) (ht : ∀ v ∈ textsIn cs, Heed.lmdbKey v = true) :
    ∀ op ∈ copyOps cs, Heed.LegalIn op := by
  intro op ho
  obtain ⟨p, hp, rfl | rfl⟩ := mem_copyOps.mp ho
  · exact hk p hp
  · intro t h v hv
    exact ht v (mem_textsIn.mpr ⟨p, hp, t, h, hv⟩)

theorem created_copy {cs : List (Str × BSet Trip)} (hn : (cs.map Prod.fst).Nodup) (hk : ∀ p ∈ cs, Heed.lmdbKey p.1 = true)
    (h64 : cs.length + 3 * tripCount cs ≤ 2 ^ 64) : created Heed.ops Heed.new (copyOps cs) = 0 ↔ cs = [] := by
  constructor
  · intro h
    cases cs with
    | nil => rfl
    | cons p cs =>
      exfalso
      have h1 := (heed_copy _ hn hk h64).1
      have : (exec Heed.ops Heed.new (.addCollection p.1)).1 = .ok () := by
        have := h1 (.addCollection p.1, (exec Heed.ops Heed.new (.addCollection p.1)).1)
        simp only [copyOps, runOps, List.mem_cons, true_or, forall_const] at this
        exact this
      simp only [copyOps, created, this] at h
      have e : listedB Heed.ops Heed.new p.1 = false := rfl
      rw [e] at h
      simp at h
  · rintro rfl; rfl

/-- C90: collections with names of 1 to 511 bytes can be copied into a new LMDB-backed store: every operation is acknowledged, the copy
lists exactly these collections and returns exactly their triples.  With such texts too, the environment then holds one record for the
counter, two per collection, two per different text and six per triple. -/
theorem C90_lmdb_copy (cs : List (Str × BSet Trip)) (hn : (cs.map Prod.fst).Nodup) (hk : ∀ p ∈ cs, Heed.lmdbKey p.1 = true)
    (h64 : cs.length + 3 * tripCount cs ≤ 2 ^ 64) :
    let copy := (runOps Heed.ops Heed.new (copyOps cs)).2
    Acked Heed.ops Heed.new (copyOps cs) ∧
    (∃ l, Heed.ops.collections copy = .ok l ∧ l.Perm (cs.map Prod.fst)) ∧ (∀ p ∈ cs, Heed.ops.triples copy p.1 = .ok p.2) ∧
    ((∀ v ∈ textsIn cs, Heed.lmdbKey v = true) →
      Heed.records copy = (if cs = [] then 0 else 1) + 2 * cs.length + 2 * (textsIn cs).toList.length + 6 * tripCount cs) := by
  obtain ⟨h1, h2, h3, h4⟩ := heed_copy cs hn hk h64
  have ha : Agrees Heed.ops (runOps Heed.ops Heed.new (copyOps cs)).2 (copied emptyWorld cs) := h3 ▸ Heed.agrees h2
  obtain ⟨⟨l, a1, a2⟩, a3⟩ := copy_shows hn ha
  refine ⟨h1, ⟨l, a1, a2⟩, a3, fun ht => ?_⟩
  rw [Heed.C86_lmdb_records _ (legal_copy hk ht), listedCount_copy a1 a2, shown_copy a1 a2 a3, orphaned_copy, h4, storedTexts_copy]
  congr 3
  simp only [created_copy hn hk h64]

example := C90_lmdb_copy copySample copySample_ok.1 copySample_ok.2.1 copySample_ok.2.2.2
example : Heed.records (runOps Heed.ops Heed.new (copyOps copySample)).2 = 1 + 2 * 2 + 2 * 4 + 6 * 3 := by decide +kernel

theorem heed_nodup {l : List Op} {cs : List (Str × BSet Trip)} (hs : Shows Heed.ops (runOps Heed.ops Heed.new l).2 cs) :
    (cs.map Prod.fst).Nodup := by
  have := hs.1
  simp only [Heed.ops, Heed.opsWith, Heed.collections] at this
  injection this with this
  rw [← this]; exact BMap.keys_nodup _

/-- A history of legal operations: what it shows is legal, and its texts were stored. -/
theorem heed_legal {l : List Op} {cs : List (Str × BSet Trip)} (hl : ∀ op ∈ l, Heed.LegalIn op)
    (hs : Shows Heed.ops (runOps Heed.ops Heed.new l).2 cs) :
    (∀ p ∈ cs, Heed.lmdbKey p.1 = true) ∧ (∀ v ∈ textsIn cs, Heed.lmdbKey v = true ∧ v ∈ storedTexts (runOps Heed.ops Heed.new l).1) := by
  obtain ⟨h, _, _⟩ := Heed.clean_runOps l Heed.new [] Heed.clean_new Heed.dead_new hl
  have hcoll : ∀ p ∈ cs, ∃ i, (runOps Heed.ops Heed.new l).2.collToId.get? p.1 = some i := by
    intro p hp
    have hm : p.1 ∈ (runOps Heed.ops Heed.new l).2.collToId.keys := by
      have := hs.1
      simp only [Heed.ops, Heed.opsWith, Heed.collections] at this
      injection this with this
      simp only [Heed.ops, Heed.opsWith]
      rw [this]; exact List.mem_map_of_mem hp
    exact BMap.mem_keys.mp hm
  refine ⟨fun p hp => ?_, fun v hv => ?_⟩
  · obtain ⟨i, hi⟩ := hcoll p hp
    exact (h.good.c2i _ _ hi).2
  · obtain ⟨p, hp, t, ht, hv⟩ := mem_textsIn.mp hv
    obtain ⟨i, hi⟩ := hcoll p hp
    obtain ⟨ts, e, hts⟩ := Heed.triples_ok h.good (c := p.1) (p := Heed.held (runOps Heed.ops Heed.new l).2 (Heed.quads (runOps Heed.ops Heed.new l).2) i)
      (by simp [Heed.world, hi])
    have e' := hs.2 p hp
    rw [show Heed.ops.triples _ p.1 = .ok ts from e] at e'
    injection e' with e'
    obtain ⟨a, b, c, _, q1, q2, q3⟩ := (hts t).mp (by rw [e']; exact ht)
    have hid : ∃ j, (runOps Heed.ops Heed.new l).2.idToVal.get? j = some v := by
      simp only [tripTexts, List.mem_cons, List.not_mem_nil, or_false] at hv
      rcases hv with rfl | rfl | rfl
      · exact ⟨_, q1⟩
      · exact ⟨_, q2⟩
      · exact ⟨_, q3⟩
    obtain ⟨j, hj⟩ := hid
    have hkey := h.vals j v hj
    refine ⟨hkey, ?_⟩
    have hk := (Heed.known_runOps l Heed.new Heed.good_new v).mp ⟨j, h.good.i2v v j hkey hj⟩
    rcases hk with ⟨i, hi⟩ | ⟨_, hk⟩
    · simp [Heed.new] at hi
    · exact Heed.mem_storedTexts.mpr hk

theorem length_split (A B : BSet Str) (h : ∀ v ∈ B, v ∈ A) :
    A.toList.length = B.toList.length + (A.toList.filter fun v => !decide (v ∈ B)).length := by
  have h1 : (A.toList.filter fun v => decide (v ∈ B)).length = B.toList.length := by
    refine Heed.length_eq_of_bij id (BSet.nodup _) ((BSet.nodup _).filter _) (fun _ _ _ _ h => h) ?_
    intro y
    simp only [id, exists_eq_right, List.mem_filter, decide_eq_true_eq]
    exact ⟨fun h => h.2, fun hy => ⟨h y hy, hy⟩⟩
  rw [← h1]
  generalize A.toList = l
  clear h1 h
  induction l with
  | nil => rfl
  | cons a l ih =>
    by_cases ha : a ∈ B <;> simp [ha] <;> omega

/-- C90: how much smaller the copy is.  After any history of operations with names and texts of 1 to 511 bytes, the environment holds
exactly these records more than the copy of what it shows: six for every triple left behind by removing its collection, two for every
text that is in no triple shown any more, and the counter if every collection is gone. -/
theorem C90_lmdb_smaller (l : List Op) (hl : ∀ op ∈ l, Heed.LegalIn op) (cs : List (Str × BSet Trip))
    (hs : Shows Heed.ops (runOps Heed.ops Heed.new l).2 cs) (h64 : cs.length + 3 * tripCount cs ≤ 2 ^ 64) :
    Heed.records (runOps Heed.ops Heed.new l).2 =
      Heed.records (runOps Heed.ops Heed.new (copyOps cs)).2 +
      6 * orphaned Heed.ops Heed.new l +
      2 * ((storedTexts (runOps Heed.ops Heed.new l).1).toList.filter fun v => !decide (v ∈ textsIn cs)).length +
      (if cs = [] ∧ created Heed.ops Heed.new l ≠ 0 then 1 else 0) := by
  have hn := heed_nodup hs
  obtain ⟨hk, ht⟩ := heed_legal hl hs
  rw [(C90_lmdb_copy cs hn hk h64).2.2.2 (fun v hv => (ht v hv).1), Heed.C86_lmdb_records l hl,
    listedCount_copy hs.1 (List.Perm.refl _), shown_copy hs.1 (List.Perm.refl _) hs.2,
    length_split (storedTexts (runOps Heed.ops Heed.new l).1) (textsIn cs) (fun v hv => (ht v hv).2)]
  have hc : cs ≠ [] → created Heed.ops Heed.new l ≠ 0 := by
    intro hne
    obtain ⟨h, _, _⟩ := Heed.clean_runOps l Heed.new [] Heed.clean_new Heed.dead_new hl
    rw [← Heed.isSome_ctr l hl]
    cases cs with
    | nil => exact absurd rfl hne
    | cons p cs =>
      have hm : p.1 ∈ (runOps Heed.ops Heed.new l).2.collToId.keys := by
        have := hs.1
        simp only [Heed.ops, Heed.opsWith, Heed.collections] at this
        injection this with this
        simp only [Heed.ops, Heed.opsWith]
        rw [this]; exact List.mem_map_of_mem List.mem_cons_self
      obtain ⟨i, hi⟩ := BMap.mem_keys.mp hm
      obtain ⟨n, e, _⟩ := h.good.collLe _ _ (h.good.c2i _ _ hi).1
      rw [e]; rfl
  have hx : created Heed.ops Heed.new l ≠ 0 → (if created Heed.ops Heed.new l = 0 then 0 else 1) = 1 := fun h => if_neg h
  by_cases he : cs = [] <;> by_cases hz : created Heed.ops Heed.new l = 0
  · simp only [he, hz, if_true]; simp; omega
  · rw [hx hz, if_pos he, if_pos ⟨he, hz⟩]; omega
  · exact absurd hz (hc he)
  · simp only [he, hz, if_false]; simp; omega

/-- C90: so no environment holding legal names and texts that shows the same is smaller than the copy. -/
theorem C90_lmdb_smallest (l : List Op) (hl : ∀ op ∈ l, Heed.LegalIn op) (cs : List (Str × BSet Trip))
    (hs : Shows Heed.ops (runOps Heed.ops Heed.new l).2 cs) (h64 : cs.length + 3 * tripCount cs ≤ 2 ^ 64) :
    Heed.records (runOps Heed.ops Heed.new (copyOps cs)).2 ≤ Heed.records (runOps Heed.ops Heed.new l).2 := by
  rw [C90_lmdb_smaller l hl cs hs h64]; omega

/-- The sample of C86: one triple left behind, three texts no longer shown. -/
example : Shows Heed.ops (runOps Heed.ops Heed.new Heed.footSample).2 [(lit "d", BSet.ofList [⟨lit "a", lit "a", lit "z"⟩])] ∧
    Heed.records (runOps Heed.ops Heed.new (copyOps [(lit "d", BSet.ofList [⟨lit "a", lit "a", lit "z"⟩])])).2 + 6 + 2 * 3 =
      Heed.records (runOps Heed.ops Heed.new Heed.footSample).2 := by
  refine ⟨⟨by decide +kernel, ?_⟩, by decide +kernel⟩
  intro p hp
  simp only [List.mem_cons, List.not_mem_nil, or_false] at hp
  subst hp
  decide +kernel

theorem shows_unique {s s' : Heed} {cs cs' : List (Str × BSet Trip)} (hs : Shows Heed.ops s cs) (hs' : Shows Heed.ops s' cs')
    (hv : SameView Heed.ops s Heed.ops s') : cs = cs' := by
  have e : cs.map Prod.fst = cs'.map Prod.fst := by
    have a := hs.1
    have b := hs'.1
    simp only [Heed.ops, Heed.opsWith, Heed.collections] at a b
    injection a with a
    injection b with b
    refine asc_ext (a ▸ BMap.keys_sorted _) (b ▸ BMap.keys_sorted _) fun c => ?_
    have := hv.1 c
    unfold Listed at this
    rw [hs.1, hs'.1] at this
    simpa using this
  have ht : ∀ p ∈ cs, ∀ q ∈ cs', p.1 = q.1 → p.2 = q.2 := by
    intro p hp q hq e
    obtain ⟨ts, h1, h2⟩ := hv.2 p.1 ⟨_, hs.1, List.mem_map_of_mem hp⟩
    rw [hs.2 p hp] at h1
    rw [e, hs'.2 q hq] at h2
    injection h1 with h1
    injection h2 with h2
    rw [h1, h2]
  clear hs hs' hv
  induction cs generalizing cs' with
  | nil => cases cs' with
    | nil => rfl
    | cons => cases e
  | cons p cs ih => cases cs' with
    | nil => cases e
    | cons q cs' =>
      simp only [List.map_cons, List.cons.injEq] at e
      rw [ih e.2 fun a ha b hb => ht a (List.mem_cons_of_mem _ ha) b (List.mem_cons_of_mem _ hb)]
      congr 1
      exact Prod.ext e.1 (ht p List.mem_cons_self q List.mem_cons_self e.1)

/-- C90: the copy of an LMDB-backed store depends on what the store shows, not on its history: two environments with the same contents
have the same copy, record by record. -/
theorem C90_lmdb_canonical (l l' : List Op) (cs cs' : List (Str × BSet Trip))
    (hs : Shows Heed.ops (runOps Heed.ops Heed.new l).2 cs) (hs' : Shows Heed.ops (runOps Heed.ops Heed.new l').2 cs')
    (hv : SameView Heed.ops (runOps Heed.ops Heed.new l).2 Heed.ops (runOps Heed.ops Heed.new l').2) :
    (runOps Heed.ops Heed.new (copyOps cs)).2 = (runOps Heed.ops Heed.new (copyOps cs')).2 := by
  rw [shows_unique hs hs' hv]

theorem copy_same_view (cs : List (Str × BSet Trip)) (l : List Op) (hs : Shows Heed.ops (runOps Heed.ops Heed.new l).2 cs)
    (h64 : cs.length + 3 * tripCount cs ≤ 2 ^ 64) :
    SameView Heed.ops (runOps Heed.ops Heed.new l).2 Heed.ops (runOps Heed.ops Heed.new (copyOps cs)).2 := by
  have hk : ∀ p ∈ cs, Heed.lmdbKey p.1 = true := by
    intro p hp
    have hm : p.1 ∈ (runOps Heed.ops Heed.new l).2.collToId.keys := by
      have := hs.1
      simp only [Heed.ops, Heed.opsWith, Heed.collections] at this
      injection this with this
      simp only [Heed.ops, Heed.opsWith]
      rw [this]; exact List.mem_map_of_mem hp
    obtain ⟨i, hi⟩ := BMap.mem_keys.mp hm
    exact ((Heed.Reach.of_runOps l).good.c2i _ _ hi).2
  obtain ⟨_, ⟨ks, a1, a2⟩, a3, _⟩ := C90_lmdb_copy cs (heed_nodup hs) hk h64
  have hL : ∀ c, Listed Heed.ops (runOps Heed.ops Heed.new l).2 c ↔ c ∈ cs.map Prod.fst := by
    intro c; unfold Listed; rw [hs.1]; simp
  refine ⟨fun c => ?_, fun c hc => ?_⟩
  · rw [hL]
    unfold Listed
    rw [a1]
    simp [a2.mem_iff]
  · obtain ⟨p, hp, rfl⟩ := List.mem_map.mp ((hL c).mp hc)
    exact ⟨p.2, hs.2 p hp, a3 p hp⟩

/-- C90: after any history whatever, the copy of an LMDB-backed store shows the same, and the copy of the copy is the copy, record by
record. -/
theorem C90_lmdb_again (l : List Op) (cs : List (Str × BSet Trip))
    (hs : Shows Heed.ops (runOps Heed.ops Heed.new l).2 cs) (h64 : cs.length + 3 * tripCount cs ≤ 2 ^ 64) :
    let copy := (runOps Heed.ops Heed.new (copyOps cs)).2
    SameView Heed.ops (runOps Heed.ops Heed.new l).2 Heed.ops copy ∧
    ∀ cs', Shows Heed.ops copy cs' → (runOps Heed.ops Heed.new (copyOps cs')).2 = copy := by
  have hv := copy_same_view cs l hs h64
  exact ⟨hv, fun cs' hs' => by rw [shows_unique hs hs' hv]⟩

/-- Two histories with the same contents and different records. -/
example : SameView Heed.ops (runOps Heed.ops Heed.new Heed.footSample).2 Heed.ops
      (runOps Heed.ops Heed.new (copyOps [(lit "d", BSet.ofList [⟨lit "a", lit "a", lit "z"⟩])])).2 ∧
    Heed.records (runOps Heed.ops Heed.new Heed.footSample).2 ≠
      Heed.records (runOps Heed.ops Heed.new (copyOps [(lit "d", BSet.ofList [⟨lit "a", lit "a", lit "z"⟩])])).2 := by
  refine ⟨(C90_lmdb_again Heed.footSample _ ⟨by decide +kernel, ?_⟩ (by decide +kernel)).1, by decide +kernel⟩
  intro p hp
  simp only [List.mem_cons, List.not_mem_nil, or_false] at hp
  subst hp
  decide +kernel

/-! ## The backup script makes the copy -/

theorem lets_copy {τ : Type v} {T : TripsOps τ} : ∀ (cs : List (Str × BSet Trip)) (r : Value) (t : τ), r = .network ∅ →
    Acked T t (copyOps cs) →
    Eval.runCallsLoop (Graph.ops T) Eval.common (cs.map letCall) r t = (.ok (.network ∅), (runOps T t (copyOps cs)).2)
  | [], r, t, h, _ => by rw [h]; rfl
  | p :: cs, r, t, h, ha => by
    simp only [copyOps, runOps, Acked, List.mem_cons, forall_eq_or_imp] at ha
    obtain ⟨a1, a2, a3⟩ := ha
    rw [List.map_cons, loop_let]
    have e1 : (T.addCollection t p.1).1 = .ok () := a1
    have e2 : (T.addTriples (T.addCollection t p.1).2 p.1 p.2).1 = .ok () := a2
    have e : Eval.letStore (Graph.ops T) (.of p.1) (p.2.map Graph.tripToEntry) t =
        (.ok (.network ∅), (T.addTriples (T.addCollection t p.1).2 p.1 p.2).2.1) := by
      unfold Eval.letStore
      have f1 : (Graph.ops T).addCollection t (.of p.1) = (.ok (), (T.addCollection t p.1).2) := by
        show ((T.addCollection t p.1).1.errTodo, (T.addCollection t p.1).2) = _
        rw [e1]; rfl
      have f2 : (Graph.ops T).addEntries (T.addCollection t p.1).2 (.of p.1) (p.2.map Graph.tripToEntry) =
          (.ok (), (T.addTriples (T.addCollection t p.1).2 p.1 p.2).2.1, p.2.map Graph.tripToEntry) := by
        show ((T.addTriples (T.addCollection t p.1).2 p.1 ((p.2.map Graph.tripToEntry).map Graph.entryToTrip)).1.errTodo,
          (T.addTriples (T.addCollection t p.1).2 p.1 ((p.2.map Graph.tripToEntry).map Graph.entryToTrip)).2.1, p.2.map Graph.tripToEntry) = _
        rw [map_back, e2]; rfl
      rw [f1]
      dsimp only
      rw [f2]; rfl
    rw [e]
    exact lets_copy cs _ _ rfl a3

/-- C90: loading the backup script of any store (C65) into a new LMDB-backed or DuckDB-backed store is copying, record by record. -/
theorem C90_backup_copies (T : TripsOps σ) (s : σ) (w : World) (h : Agrees T s w) (hp : PlainTexts T s) (script : Str)
    (hb : Backup (Graph.ops T) s script) (cs : List (Str × BSet Trip)) (hs : Shows T s cs) :
    ((∀ p ∈ cs, Heed.lmdbKey p.1 = true) → cs.length + 3 * tripCount cs ≤ 2 ^ 64 →
      Eval.run (Graph.ops Heed.ops) Eval.common script Heed.new = (.ok (.network ∅), (runOps Heed.ops Heed.new (copyOps cs)).2)) ∧
    Eval.run (Graph.ops Duck.ops) Eval.common script Duck.new = (.ok (.network ∅), (runOps Duck.ops Duck.new (copyOps cs)).2) := by
  have hn : (cs.map Prod.fst).Nodup := by
    obtain ⟨⟨l, a1, a2, _⟩, _⟩ := h
    have := hs.1
    rw [a1] at this
    injection this with this
    rw [← this]; exact a2
  have hl : Lists T s cs := ⟨hs.1, hn, hs.2⟩
  constructor
  · intro hk h64
    rw [run_backup hl hp script hb]
    exact lets_copy cs _ _ rfl (heed_copy cs hn hk h64).1
  · rw [run_backup hl hp script hb]
    exact lets_copy cs _ _ rfl (duck_copy cs hn).1

/-! ## DuckDB -/

theorem lines_copy : ∀ (cs : List (Str × BSet Trip)) (log : List (Str × Trip)),
    (((copyOps cs).map fun op => (op, Res.ok ())).foldl (fun log (e : Event) =>
      match e with
      | (.addTriples c ts, .ok _) => log ++ ts.toList.map fun t => (c, t)
      | (.removeTriples c ts, .ok _) => log.filter fun p => decide (¬ (p.1 = c ∧ p.2 ∈ ts))
      | _ => log) log).length = log.length + tripCount cs
  | [], log => by simp [copyOps, tripCount]
  | p :: cs, log => by
    simp only [copyOps, List.map_cons, List.foldl_cons]
    rw [lines_copy cs]
    simp only [tripCount, List.length_append, List.length_map, List.map_cons, List.sum_cons]
    omega

/-- C90: the same for the DuckDB-backed store: the copy has one row per collection, one per different text and one per triple. -/
theorem C90_duck_copy (cs : List (Str × BSet Trip)) (hn : (cs.map Prod.fst).Nodup) :
    let copy := (runOps Duck.ops Duck.new (copyOps cs)).2
    Acked Duck.ops Duck.new (copyOps cs) ∧
    (∃ l, Duck.ops.collections copy = .ok l ∧ l.Perm (cs.map Prod.fst)) ∧ (∀ p ∈ cs, Duck.ops.triples copy p.1 = .ok p.2) ∧
    copy.colls.length = cs.length ∧ copy.parts.length = (textsIn cs).toList.length ∧ copy.trips.length = tripCount cs := by
  obtain ⟨h1, h2, h3, h4⟩ := duck_copy cs hn
  have ha : Agrees Duck.ops (runOps Duck.ops Duck.new (copyOps cs)).2 (copied emptyWorld cs) := h3 ▸ Duck.agrees h2
  obtain ⟨⟨l, a1, a2⟩, a3⟩ := copy_shows hn ha
  refine ⟨h1, ⟨l, a1, a2⟩, a3, ?_, ?_, ?_⟩
  · rw [(Duck.C86_duck_tables _).1, listedCount_copy a1 a2]
  · rw [(Duck.C86_duck_tables _).2, h4, storedTexts_copy]
  · have := congrArg List.length (Duck.C86_duck_rows (copyOps cs))
    simp only [List.length_map] at this
    rw [this, h4]
    have e := lines_copy cs []
    rw [List.length_nil, Nat.zero_add] at e
    rw [← e]
    unfold linesAfter
    congr 2

example := C90_duck_copy copySample copySample_ok.1

theorem length_le_of_nodup {α : Type u} [DecidableEq α] : ∀ {l m : List α}, l.Nodup → (∀ x ∈ l, x ∈ m) → l.length ≤ m.length
  | [], _, _, _ => Nat.zero_le _
  | a :: l, m, hn, h => by
    rw [List.nodup_cons] at hn
    have ha := h a List.mem_cons_self
    have hl : ∀ x ∈ l, x ∈ m.erase a := fun x hx =>
      (List.mem_erase_of_ne (fun e : x = a => hn.1 (e ▸ hx))).mpr (h x (List.mem_cons_of_mem _ hx))
    have := length_le_of_nodup hn.2 hl
    rw [List.length_erase_of_mem ha] at this
    have : 0 < m.length := List.length_pos_of_mem ha
    simp only [List.length_cons]
    omega

/-- The triples one by one. -/
def pairs (cs : List (Str × BSet Trip)) : List (Str × Trip) := cs.flatMap fun p => p.2.toList.map fun t => (p.1, t)

theorem pairs_length (cs : List (Str × BSet Trip)) : (pairs cs).length = tripCount cs := by
  simp [pairs, tripCount, List.length_flatMap]

theorem mem_pairs {cs : List (Str × BSet Trip)} {c : Str} {t : Trip} : (c, t) ∈ pairs cs ↔ ∃ p ∈ cs, p.1 = c ∧ t ∈ p.2 := by
  unfold pairs
  rw [List.mem_flatMap]
  constructor
  · rintro ⟨p, hp, h⟩
    obtain ⟨u, hu, e⟩ := List.mem_map.mp h
    cases e
    exact ⟨p, hp, rfl, hu⟩
  · rintro ⟨p, hp, rfl, ht⟩
    exact ⟨p, hp, List.mem_map.mpr ⟨t, ht, rfl⟩⟩

theorem pairs_nodup : ∀ (cs : List (Str × BSet Trip)), (cs.map Prod.fst).Nodup → (pairs cs).Nodup
  | [], _ => List.nodup_nil
  | p :: cs, h => by
    simp only [List.map_cons, List.nodup_cons] at h
    have e : pairs (p :: cs) = (p.2.toList.map fun t => (p.1, t)) ++ pairs cs := rfl
    rw [e, List.nodup_append]
    refine ⟨Heed.nodup_map_on (BSet.nodup _) (fun a _ b _ h => by cases h; rfl), pairs_nodup cs h.2, ?_⟩
    rintro ⟨c, t⟩ h1 ⟨d, u⟩ h2 he
    cases he
    obtain ⟨_, _, e⟩ := List.mem_map.mp h1
    cases e
    obtain ⟨q, hq, e, _⟩ := mem_pairs.mp h2
    exact h.1 (e ▸ List.mem_map_of_mem hq)

/-- C90: no DuckDB-backed store that shows the same has fewer rows in any of its tables than the copy. -/
theorem C90_duck_smallest (l : List Op) (cs : List (Str × BSet Trip)) (hs : Shows Duck.ops (runOps Duck.ops Duck.new l).2 cs) :
    let s := (runOps Duck.ops Duck.new l).2
    let copy := (runOps Duck.ops Duck.new (copyOps cs)).2
    copy.colls.length = s.colls.length ∧ copy.parts.length ≤ s.parts.length ∧ copy.trips.length ≤ s.trips.length := by
  have hi := (Duck.rel_runOps l).1
  have hn : (cs.map Prod.fst).Nodup := by
    have := hs.1
    simp only [Duck.ops, Duck.collections] at this
    injection this with this
    rw [← this]; exact hi.colls.names
  obtain ⟨_, _, _, c1, c2, c3⟩ := C90_duck_copy cs hn
  dsimp only
  rw [c1, c2, c3]
  have hheld : ∀ p ∈ cs, ∀ t ∈ p.2, ∃ r ∈ (runOps Duck.ops Duck.new l).2.trips, Duck.says (runOps Duck.ops Duck.new l).2 r = some (p.1, t) := by
    intro p hp t ht
    have hm : p.1 ∈ (runOps Duck.ops Duck.new l).2.colls.map Prod.snd := by
      have := hs.1
      simp only [Duck.ops, Duck.collections] at this
      injection this with this
      simp only [Duck.ops]
      rw [this]; exact List.mem_map_of_mem hp
    obtain ⟨⟨i, x⟩, hx, e⟩ := List.mem_map.mp hm
    cases e
    have hw : Duck.world (runOps Duck.ops Duck.new l).2 p.1 = some (Duck.held (runOps Duck.ops Duck.new l).2 i) := by
      simp [Duck.world, (hi.colls.idOf_eq _ _).mpr hx]
    obtain ⟨ts, e, hts⟩ := (Duck.agrees hi).2 _ _ hw
    rw [hs.2 p hp] at e
    injection e with e
    obtain ⟨r, hr, rfl, hd⟩ := (hts t).mp (e ▸ ht)
    exact ⟨r, hr, (Duck.says_iff hi r p.1 t).mpr ⟨hx, hd⟩⟩
  refine ⟨?_, ?_, ?_⟩
  · rw [(Duck.C86_duck_tables l).1, listedCount_copy hs.1 (List.Perm.refl _)]
  · rw [← List.length_map (f := Prod.snd) (as := (runOps Duck.ops Duck.new l).2.parts)]
    refine length_le_of_nodup (BSet.nodup _) fun v hv => ?_
    obtain ⟨p, hp, t, ht, hv⟩ := mem_textsIn.mp hv
    obtain ⟨r, _, e⟩ := hheld p hp t ht
    obtain ⟨_, f, se, th, _, _, _, m1, m2, m3⟩ := (Duck.says_iff hi r p.1 t).mp e
    simp only [tripTexts, List.mem_cons, List.not_mem_nil, or_false] at hv
    rcases hv with rfl | rfl | rfl
    · exact List.mem_map.mpr ⟨_, m1, rfl⟩
    · exact List.mem_map.mpr ⟨_, m2, rfl⟩
    · exact List.mem_map.mpr ⟨_, m3, rfl⟩
  · rw [← pairs_length, ← List.length_map (f := fun p : Str × Trip => some p),
      ← List.length_map (f := Duck.says (runOps Duck.ops Duck.new l).2) (as := (runOps Duck.ops Duck.new l).2.trips)]
    refine length_le_of_nodup (Heed.nodup_map_on (pairs_nodup cs hn) (fun a _ b _ h => by cases h; rfl)) fun x hx => ?_
    obtain ⟨⟨c, t⟩, hm, rfl⟩ := List.mem_map.mp hx
    obtain ⟨p, hp, rfl, ht⟩ := mem_pairs.mp hm
    obtain ⟨r, hr, e⟩ := hheld p hp t ht
    exact List.mem_map.mpr ⟨r, hr, e⟩

/-- A triple added twice and a text no longer used: the copy has one row less in each of the two tables. -/
example :
    let l : List Op := [.addCollection (lit "c"), .addTriples (lit "c") (BSet.ofList [⟨lit "a", lit "b", lit "x"⟩]),
      .addTriples (lit "c") (BSet.ofList [⟨lit "a", lit "b", lit "x"⟩]), .addTriples (lit "c") (BSet.ofList [⟨lit "a", lit "b", lit "y"⟩]),
      .removeTriples (lit "c") (BSet.ofList [⟨lit "a", lit "b", lit "y"⟩])]
    let cs := [(lit "c", BSet.ofList [⟨lit "a", lit "b", lit "x"⟩])]
    Duck.ops.collections (runOps Duck.ops Duck.new l).2 = .ok (cs.map Prod.fst) ∧
    Duck.ops.triples (runOps Duck.ops Duck.new l).2 (lit "c") = .ok (BSet.ofList [⟨lit "a", lit "b", lit "x"⟩]) ∧
    (runOps Duck.ops Duck.new l).2.trips.length = (runOps Duck.ops Duck.new (copyOps cs)).2.trips.length + 1 ∧
    (runOps Duck.ops Duck.new l).2.parts.length = (runOps Duck.ops Duck.new (copyOps cs)).2.parts.length + 1 := by decide +kernel

/-- The backup of a history on the LMDB-backed store is the script that writes its one collection. -/
example : Backup (Graph.ops Heed.ops) (runOps Heed.ops Heed.new Heed.footSample).2 (lit "let \"d\" {\"a\" \"a\" \"z\"}") ∧
    (Eval.run (Graph.ops Heed.ops) Eval.common (lit "let \"d\" {\"a\" \"a\" \"z\"}") Heed.new).2 =
      (runOps Heed.ops Heed.new (copyOps [(lit "d", BSet.ofList [⟨lit "a", lit "a", lit "z"⟩])])).2 := by
  refine ⟨⟨[(.of (lit "d"), BSet.ofList [.role (.of (lit "a")) (.of (lit "z")) (.of (lit "a"))])], ?_, ?_, ?_⟩, ?_⟩
  · decide +kernel
  · intro p hp
    simp only [List.mem_cons, List.not_mem_nil, or_false] at hp
    subst hp
    decide +kernel
  · decide +kernel
  · decide +kernel

end Props
end Verif
