import Verif.Proofs.Provenance
import Verif.Props.ScriptsShared
import Verif.Props.Effects
import Verif.Props.Parsing
import Verif.Props.Lexing
/-!
# C78: how many store operations scripts make.  C79: where data comes from
-/
namespace Verif
namespace Props
open Spec Eval Steps

/-! ## C78 -/

theorem opsBy_append (i : Nat) (tr tr' : List (Nat × Ask)) : opsBy i (tr ++ tr') = opsBy i tr + opsBy i tr' := by
  simp [opsBy]

theorem interleaved_within (L : LigOps σ) {s : σ} {ps : List Prog} {tr : List (Nat × Ask)} {s' : σ} {ps' : List Prog}
    (h : Interleaved L s ps tr s' ps') (B : Nat → Nat) (hB : ∀ i p, ps[i]? = some p → Within (B i) p) :
    ps'.length = ps.length ∧ ∀ i p, ps'[i]? = some p → opsBy i tr ≤ B i ∧ Within (B i - opsBy i tr) p := by
  induction h with
  | start => exact ⟨rfl, fun i p hp => ⟨Nat.zero_le _, hB i p hp⟩⟩
  | @step tr s1 ps1 j q k hrun hj ih =>
    obtain ⟨hlen, ih⟩ := ih
    refine ⟨by simpa using hlen, fun i p hp => ?_⟩
    rw [opsBy_append]
    by_cases hij : i = j
    · subst hij
      rw [List.getElem?_set_self (List.getElem?_eq_some_iff.mp hj).1] at hp
      cases hp
      obtain ⟨h1, m, h2, h3⟩ := ih i _ hj
      have : opsBy i [(i, q)] = 1 := by simp [opsBy]
      exact ⟨by omega, (h3 _).mono _ (by omega)⟩
    · rw [List.getElem?_set_ne (fun e => hij e.symm)] at hp
      obtain ⟨h1, h2⟩ := ih i p hp
      have : opsBy i [(j, q)] = 0 := by simp [opsBy]; exact fun e => hij e.symm
      exact ⟨by omega, h2.mono _ (by omega)⟩

/-- C78: over any store, alone or with any number of other scripts at the same time: whatever the others do, a script makes at most two store
operations per call and quote in it. -/
theorem C78_store_operations (L : LigOps σ) (s : σ) (scripts : List (List Call)) {tr : List (Nat × Ask)} {s' : σ} {ps' : List Prog}
    (h : Interleaved L s (scripts.map callsP) tr s' ps') (i : Nat) (calls : List Call) (hi : scripts[i]? = some calls) :
    opsBy i tr ≤ 2 * scriptSize calls := by
  obtain ⟨hlen, hw⟩ := interleaved_within L h (fun i => 2 * scriptSize (scripts[i]?.getD [])) (fun i p hp => by
    rw [List.getElem?_map] at hp
    cases hA : scripts[i]? with
    | none => rw [hA] at hp; cases hp
    | some A => rw [hA] at hp; cases hp; exact within_callsP A emptyNet)
  have hl : i < ps'.length := by
    rw [hlen, List.length_map]; exact (List.getElem?_eq_some_iff.mp hi).1
  have := (hw i _ (List.getElem?_eq_getElem hl)).1
  simpa [hi] using this

theorem opsBy_sum (tr : List (Nat × Ask)) (n : Nat) (h : ∀ e ∈ tr, e.1 < n) : tr.length = ((List.range n).map fun i => opsBy i tr).sum := by
  induction tr with
  | nil =>
    have : ∀ l : List Nat, (l.map fun i => opsBy i []).sum = 0 := by intro l; induction l <;> simp_all [opsBy]
    simp [this]
  | cons e tr ih =>
    have key : ∀ l : List Nat, l.Nodup → (l.map fun i => opsBy i (e :: tr)).sum = (l.map fun i => opsBy i tr).sum + if e.1 ∈ l then 1 else 0 := by
      intro l
      induction l with
      | nil => intro _; simp
      | cons a l ihl =>
        intro hn
        obtain ⟨ha, hn⟩ := List.nodup_cons.mp hn
        simp only [List.map_cons, List.sum_cons, ihl hn]
        by_cases hea : e.1 = a
        · subst hea
          simp only [opsBy, List.filter_cons, beq_self_eq_true, if_true, List.length_cons, List.mem_cons, true_or, if_neg ha]; omega
        · have : opsBy a (e :: tr) = opsBy a tr := by simp [opsBy, hea]
          simp only [this, List.mem_cons, hea, false_or]; omega
    rw [key _ List.nodup_range, ← ih (fun e h' => h e (List.mem_cons_of_mem _ h'))]
    simp [List.mem_range.mpr (h e List.mem_cons_self)]

theorem interleaved_who (L : LigOps σ) {s : σ} {ps : List Prog} {tr : List (Nat × Ask)} {s' : σ} {ps' : List Prog}
    (h : Interleaved L s ps tr s' ps') : ps'.length = ps.length ∧ ∀ e ∈ tr, e.1 < ps.length := by
  induction h with
  | start => exact ⟨rfl, by simp⟩
  | @step tr s1 ps1 j q k hrun hj ih =>
    refine ⟨by simpa using ih.1, fun e he => ?_⟩
    rcases List.mem_append.mp he with he | he
    · exact ih.2 e he
    · simp only [List.mem_cons, List.not_mem_nil, or_false] at he
      subst he
      rw [← ih.1]; exact (List.getElem?_eq_some_iff.mp hj).1

/-- C78: so the scripts together end after at most twice the sum of their sizes operations: no schedule goes on for ever. -/
theorem C78_terminates (L : LigOps σ) (s : σ) (scripts : List (List Call)) {tr : List (Nat × Ask)} {s' : σ} {ps' : List Prog}
    (h : Interleaved L s (scripts.map callsP) tr s' ps') : tr.length ≤ 2 * (scripts.map scriptSize).sum := by
  obtain ⟨_, hw⟩ := interleaved_who L h
  rw [List.length_map] at hw
  rw [opsBy_sum tr scripts.length hw]
  have key : ∀ (l : List (List Call)) (k : Nat), (∀ i calls, l[i]? = some calls → opsBy (k + i) tr ≤ 2 * scriptSize calls) →
      ((List.range l.length).map fun i => opsBy (k + i) tr).sum ≤ 2 * (l.map scriptSize).sum := by
    intro l
    induction l with
    | nil => intro k _; simp
    | cons a l ih =>
      intro k hl
      simp only [List.length_cons, List.range_succ_eq_map, List.map_cons, List.sum_cons, List.map_map]
      have h0 := hl 0 a rfl
      have h1 := ih (k + 1) (fun i calls hi => by have := hl (i + 1) calls (by simpa using hi); rwa [show k + 1 + i = k + (i + 1) by omega])
      have : ((fun i => opsBy (k + i) tr) ∘ Nat.succ) = (fun i => opsBy (k + 1 + i) tr) := by
        funext i; simp only [Function.comp]; congr 1; omega
      rw [this]; omega
  have := key scripts 0 (fun i calls hi => by rw [Nat.zero_add]; exact C78_store_operations L s scripts h i calls hi)
  simpa using this

/-- C78: a script that runs alone: its operations, one after the other, lead to its result, and there are at most `2 * scriptSize`. -/
theorem C78_alone (L : LigOps σ) (s : σ) (calls : List Call) :
    ∃ tr, tr.length ≤ 2 * scriptSize calls ∧
      Interleaved L s [callsP calls] tr (runCalls L common calls s).2 [.ret (runCalls L common calls s).1] := by
  have key : ∀ (p : Prog) {tr s1}, Interleaved L s [callsP calls] tr s1 [p] → p.run L s1 = (callsP calls).run L s →
      ∃ tr', Interleaved L s [callsP calls] tr' ((callsP calls).run L s).2 [.ret ((callsP calls).run L s).1] := by
    intro p
    induction p with
    | ret r => intro tr s1 h e; exact ⟨tr, by rw [← e]; exact h⟩
    | ask q k ih =>
      intro tr s1 h e
      exact ih _ (Interleaved.step 0 q k h rfl) (by rw [← e]; rfl)
  obtain ⟨tr, h⟩ := key _ Interleaved.start rfl
  rw [run_callsP] at h
  refine ⟨tr, ?_, h⟩
  have := C78_terminates L s [calls] h
  simpa using this

/-- The bound is reached: a `let` whose network is a quote that is a `let`. -/
example : ∃ tr s' ps', Interleaved Graph.memOps Graph.memNew ([[call "let" [.element (.of (lit "A")),
      .quote [.element (.of (lit "let")), .element (.of (lit "B")), .network sampleNet]]]].map callsP) tr s' ps' ∧
    ps'.map finished = [some (.ok (.network ∅))] ∧ tr.length = 4 ∧
    scriptSize [call "let" [.element (.of (lit "A")), .quote [.element (.of (lit "let")), .element (.of (lit "B")), .network sampleNet]]] = 2 :=
  ⟨_, _, _, play_interleaved _ [0, 0, 0, 0] ([], _, _) .start, by decide +kernel, by decide +kernel, by decide +kernel⟩

theorem tokenized_length {script : Str} {ts : List Token} (h : Tokenized script ts) : ts.length ≤ script.length := by
  induction h with
  | nil => simp
  | cons hb _ _ ih =>
    have h0 := hb.1
    have h1 := hb.2.1
    rw [List.length_drop] at ih
    simp only [List.length_cons]; omega

theorem quotesInAll_flat {vs : List Value} (h : ∀ v ∈ vs, quotesIn v = 0) : quotesInAll vs = 0 := by
  induction vs with
  | nil => rfl
  | cons v vs ih =>
    simp only [quotesInAll, h v List.mem_cons_self, ih (fun w hw => h w (List.mem_cons_of_mem _ hw))]

theorem items_quotes {ts : List Token} {vs : List Value} (h : Items ts vs) : quotesInAll vs = 0 := by
  induction h with
  | close => rfl
  | element _ ih => simp [quotesInAll, quotesIn, ih]
  | network _ _ ih => simp [quotesInAll, quotesIn, ih]

theorem values_quotes {ts : List Token} {vs : List Value} (h : Values ts vs) : quotesInAll vs ≤ ts.length := by
  induction h with
  | nil => simp [quotesInAll]
  | @cons ts v us vs hv hvs ih =>
    have : quotesIn v ≤ ts.length := by
      cases hv with
      | element e => simp [quotesIn]
      | string s => simp [quotesIn]
      | network h => simp [quotesIn]
      | quote h => simp [quotesIn, items_quotes h]
    simp only [quotesInAll, List.length_append]; omega

theorem callLit_size {ts : List Token} {c : Call} (h : CallLit ts c) : 1 + quotesInAll c.args ≤ ts.length := by
  unfold CallLit at h
  generalize hw : Value.element c.name :: c.args = vs at h
  cases h with
  | nil => cases hw
  | cons hv hvs =>
    cases hw
    have := values_quotes hvs
    have := Parser.valueLit_ne hv
    simp only [List.length_append]; omega

theorem program_size {ts : List Token} {cs : List Call} (h : Program ts cs) : scriptSize cs ≤ ts.length := by
  induction h with
  | nil => simp [scriptSize]
  | last hc => simpa [scriptSize] using callLit_size hc
  | more hc _ ih =>
    have := callLit_size hc
    simp only [scriptSize, List.map_cons, List.sum_cons, List.length_append, List.length_cons] at *; omega

/-- C78 on script texts: a script of `n` characters, run on any store, makes at most `2 * n` store operations. -/
theorem C78_text (L : LigOps σ) (s : σ) (script : Str) :
    ∃ tr, tr.length ≤ 2 * script.length ∧
      Interleaved L s [scriptP script] tr (run L common script s).2 [.ret (run L common script s).1] := by
  have nothing : ∀ r, scriptP script = .ret r → ∃ tr, tr.length ≤ 2 * script.length ∧
      Interleaved L s [scriptP script] tr (run L common script s).2 [.ret (run L common script s).1] := by
    intro r hr
    refine ⟨[], Nat.zero_le _, ?_⟩
    rw [← run_scriptP, hr]
    exact .start
  cases ht : Lexer.tokenizeAndFilter script with
  | err m => exact nothing (.err m) (by simp only [scriptP, ht])
  | panic => exact nothing .panic (by simp only [scriptP, ht])
  | ok tokens =>
    cases hp : Parser.parse tokens with
    | err m => exact nothing (.err m) (by simp only [scriptP, ht, hp])
    | panic => exact nothing .panic (by simp only [scriptP, ht, hp])
    | ok calls =>
      have e : scriptP script = callsP calls := by simp only [scriptP, ht, hp]
      obtain ⟨tr, h1, h2⟩ := C78_alone L s calls
      rw [← run_scriptP, e, run_callsP]
      refine ⟨tr, ?_, h2⟩
      obtain ⟨⟨raw, hr, rfl⟩, _⟩ := C05_filtered script tokens ht
      have a := program_size ((C06_exact _ _).mp hp)
      have b := tokenized_length ((C02_longest_match _ _).mp hr)
      have c : (raw.filterMap kept).length ≤ raw.length := List.length_filterMap_le ..
      omega

/-! ## C79 -/

/-- A store in which triples come from nowhere else than `add_triples`. -/
structure Conserves (T : TripsOps τ) (I : τ → Prop) : Prop where
  inv : ∀ s op, I s → I (exec T s op).2
  grow : ∀ s op, I s → ∀ d ts', T.triples (exec T s op).2 d = .ok ts' → ∀ t ∈ ts',
    (∃ ts, T.triples s d = .ok ts ∧ t ∈ ts) ∨ ∃ us, op = .addTriples d us ∧ t ∈ us
  filter : ∀ s c q r, I s → T.filter s c q = .ok r → ∃ ts, T.triples s c = .ok ts ∧ ∀ t ∈ r, t ∈ ts

theorem conserves_of {T : TripsOps τ} {I : τ → Prop} {b : Bool} {world : τ → World} {P : Op → Prop} (R : Refines T I b world P)
    (hm : ∀ s d ts, I s → world s d = none → T.triples s d = .ok ts → ∀ t, ¬ t ∈ ts)
    (hi : ∀ s op, I s → ¬ P op → world (exec T s op).2 op.target = none)
    (hf : ∀ s c q r, I s → T.filter s c q = .ok r → ∃ ts, T.triples s c = .ok ts ∧ ∀ t ∈ r, t ∈ ts) : Conserves T I where
  inv := R.inv
  filter := hf
  grow := by
    intro s op hs d ts' h t ht
    have hs' := R.inv s op hs
    cases hw' : world (exec T s op).2 d with
    | none => exact absurd ht (hm _ d ts' hs' hw' h t)
    | some p' =>
      obtain ⟨us, e1, e2⟩ := (R.agrees _ hs').2 d p' hw'
      rw [h] at e1; cases e1
      have hp' : p' t := (e2 t).mp ht
      have old : ∀ p, world s d = some p → p t → ∃ ts, T.triples s d = .ok ts ∧ t ∈ ts := by
        intro p hp hpt
        obtain ⟨ts, f1, f2⟩ := (R.agrees _ hs).2 d p hp
        exact ⟨ts, f1, (f2 t).mpr hpt⟩
      by_cases hd : d = op.target
      · subst hd
        by_cases hP : P op
        · rw [R.step s op hs hP] at hw'
          cases hr : (exec T s op).1 with
          | ok u =>
            rw [hr] at hw'
            simp only [applyEvent] at hw'
            cases op with
            | addCollection c =>
              simp only [apply, Op.target] at hw' ⊢
              cases hc : world s c with
              | none => rw [hc] at hw'; simp [World.set] at hw'; rw [← hw'] at hp'; exact absurd hp' (fun h => h)
              | some p =>
                rw [hc] at hw'
                cases b
                · simp [hc] at hw'; exact .inl (old p hc (hw' ▸ hp'))
                · simp [World.set] at hw'; rw [← hw'] at hp'; exact absurd hp' (fun h => h)
            | removeCollection c => simp [apply, Op.target, World.set] at hw'
            | addTriples c vs =>
              simp only [apply, Op.target] at hw' ⊢
              cases hc : world s c with
              | none => rw [hc] at hw'; simp [hc] at hw'
              | some p =>
                rw [hc] at hw'
                simp [World.set] at hw'
                rw [← hw'] at hp'
                rcases hp' with hp' | hp'
                · exact .inl (old p hc hp')
                · exact .inr ⟨vs, rfl, hp'⟩
            | removeTriples c vs =>
              simp only [apply, Op.target] at hw' ⊢
              cases hc : world s c with
              | none => rw [hc] at hw'; simp [hc] at hw'
              | some p =>
                rw [hc] at hw'
                simp [World.set] at hw'
                rw [← hw'] at hp'
                exact .inl (old p hc hp'.1)
          | err m => rw [hr] at hw'; exact .inl (old _ hw' hp')
          | panic => rw [hr] at hw'; exact .inl (old _ hw' hp')
        · rw [hi s op hs hP] at hw'; cases hw'
      · rw [R.other s op d hs hd] at hw'
        exact .inl (old _ hw' hp')

theorem mem_conserves : Conserves Mem.ops (fun _ => True) :=
  conserves_of mem_refines
    (fun s d ts _ h h' => by
      rw [Mem.world_none] at h
      simp [Mem.ops, Mem.triples, h] at h')
    (fun _ _ _ h => absurd trivial h)
    (fun s c q r _ h => by
      simp only [Mem.ops, Mem.filter, Mem.triples] at h ⊢
      cases hc : s.colls.get? c with
      | none => rw [hc] at h; cases h
      | some coll =>
        rw [hc] at h
        refine ⟨coll, rfl, fun t ht => ?_⟩
        simp only at h
        by_cases hl : ∃ t ∈ coll.toList, Mem.Reaches q t
        · rw [(Mem.filterLoop_panic q _ ∅).mpr hl] at h; cases h
        · obtain ⟨r', e1, e2⟩ := Mem.filterLoop_ok q _ hl ∅
          rw [e1] at h; cases h
          rcases (e2 t).mp ht with h | h
          · simp at h
          · exact BSet.mem_def.mpr h.1)

theorem duck_conserves : Conserves Duck.ops Duck.Inv :=
  conserves_of duck_refines
    (fun s d ts hs h h' t ht => by
      obtain ⟨us, e1, e2⟩ := Duck.triples_spec hs d
      rw [show Duck.ops.triples s d = _ from e1] at h'; cases h'
      obtain ⟨p, hp, _⟩ := (e2 t).mp ht
      rw [h] at hp; cases hp)
    (fun _ _ _ h => absurd trivial h)
    (fun s c q r _ h => by cases h)

theorem heed_conserves : Conserves Heed.ops Heed.Good :=
  conserves_of heed_refines
    (fun s d ts hs h h' => by rw [show Heed.ops.triples s d = _ from Heed.triples_missing hs h] at h'; cases h')
    (fun s op hs hP => by
      have hs' := heed_refines.inv s op hs
      cases op with
      | addCollection c =>
        cases hg : (exec Heed.ops s (.addCollection c)).2.collToId.get? c with
        | none => simp [Heed.worldOf, Heed.world, Op.target, hg]
        | some i => exact absurd (hs'.c2i c i hg).2 hP
      | removeCollection c => exact absurd trivial hP
      | addTriples c ts => exact absurd trivial hP
      | removeTriples c ts => exact absurd trivial hP)
    (fun s c q r _ h => by cases h)

section
variable {T : TripsOps τ} {I : τ → Prop}

/-- Everything in the store has the property. -/
def AllIn (L : LigOps σ) (A : Entry → Prop) (s : σ) : Prop := ∀ e, HeldIn L s e → A e

theorem perform_conserves (C : Conserves T I) {A : Entry → Prop} (hA : ∀ e, A e → A (canon e)) {s : τ} (hs : I s)
    (h : AllIn (Graph.ops T) A s) (q : Ask) (hq : ∀ c es, q = .addEntries c es → ∀ e ∈ es, A e) :
    AnswerIn A (perform (Graph.ops T) s q).1 ∧ I (perform (Graph.ops T) s q).2 ∧ AllIn (Graph.ops T) A (perform (Graph.ops T) s q).2 := by
  have after : ∀ op, (∀ d us, op = .addTriples d us → ∀ t ∈ us, A (Graph.tripToEntry t)) →
      AllIn (Graph.ops T) A (exec T s op).2 := by
    rintro op hop e ⟨c, n, h1, h2⟩
    have h1' : (T.triples (exec T s op).2 c.text).map (·.map Graph.tripToEntry) = .ok n := h1
    cases ht : T.triples (exec T s op).2 c.text with
    | err m => rw [ht] at h1'; cases h1'
    | panic => rw [ht] at h1'; cases h1'
    | ok ts =>
      rw [ht] at h1'; cases h1'
      obtain ⟨t, ht', rfl⟩ := BSet.mem_map.mp h2
      rcases C.grow s op hs _ _ ht t ht' with ⟨us, g1, g2⟩ | ⟨us, g1, g2⟩
      · exact h _ ⟨c, us.map Graph.tripToEntry, by show (T.triples s c.text).map _ = _; rw [g1]; rfl, BSet.mem_map.mpr ⟨t, g2, rfl⟩⟩
      · exact hop _ us g1 t g2
  cases q with
  | entries c =>
    refine ⟨?_, hs, h⟩
    intro n hn e he
    simp only [perform, Answer.network.injEq] at hn
    exact h e ⟨c, n, hn, he⟩
  | filter c p =>
    refine ⟨?_, hs, h⟩
    intro n hn e he
    simp only [perform, Answer.network.injEq] at hn
    have hn' : ((T.filter s c.text (Graph.patternToQuery p)).map (·.map Graph.tripToEntry)).errTodo = .ok n := hn
    cases hf : T.filter s c.text (Graph.patternToQuery p) with
    | err m => rw [hf] at hn'; cases hn'
    | panic => rw [hf] at hn'; cases hn'
    | ok r =>
      rw [hf] at hn'; cases hn'
      obtain ⟨t, ht, rfl⟩ := BSet.mem_map.mp he
      obtain ⟨ts, g1, g2⟩ := C.filter s c.text _ r hs hf
      exact h _ ⟨c, ts.map Graph.tripToEntry, by show (T.triples s c.text).map _ = _; rw [g1]; rfl, BSet.mem_map.mpr ⟨t, g2 t ht, rfl⟩⟩
  | addCollection c =>
    refine ⟨fun n hn => (by simp [perform] at hn), C.inv s (.addCollection c.text) hs, after (.addCollection c.text) (fun d us e => by cases e)⟩
  | addEntries c es =>
    refine ⟨fun n hn => (by simp [perform] at hn), C.inv s (.addTriples c.text (es.map Graph.entryToTrip)) hs,
      after (.addTriples c.text (es.map Graph.entryToTrip)) ?_⟩
    intro d us e t ht
    cases e
    obtain ⟨x, hx, rfl⟩ := BSet.mem_map.mp ht
    rw [← Graph.canon_eq]
    exact hA x (hq c es rfl x hx)

theorem interleaved_conserves (C : Conserves T I) {A : Entry → Prop} (hA : ∀ e, A e → A (canon e)) {V : Nat → Value → Prop} {s : τ} (hs : I s)
    (h : AllIn (Graph.ops T) A s) {ps : List Prog} (hp : ∀ i p, ps[i]? = some p → Safe A (V i) p)
    {tr : List (Nat × Ask)} {s' : τ} {ps' : List Prog} (hr : Interleaved (Graph.ops T) s ps tr s' ps') :
    I s' ∧ AllIn (Graph.ops T) A s' ∧ ∀ i p, ps'[i]? = some p → Safe A (V i) p := by
  induction hr with
  | start => exact ⟨hs, h, hp⟩
  | @step tr s1 ps1 j q k hrun hj ih =>
    obtain ⟨i1, i2, i3⟩ := ih
    obtain ⟨h1, h2⟩ := i3 j _ hj
    obtain ⟨p1, p2, p3⟩ := perform_conserves C hA i1 i2 q h1
    refine ⟨p2, p3, fun i p hi => ?_⟩
    by_cases hij : i = j
    · subst hij
      rw [List.getElem?_set_self (List.getElem?_eq_some_iff.mp hj).1] at hi
      cases hi
      exact h2 _ p1
    · rw [List.getElem?_set_ne (fun e => hij e.symm)] at hi
      exact i3 i p hi

theorem canon_canon (e : Entry) : canon (canon e) = canon e := by
  rw [Graph.canon_eq, Graph.canon_eq e, Graph.entryToTrip_tripToEntry]

theorem traceable_of (C : Conserves T I) {s : τ} (hs : I s) (scripts : List (List Call))
    {tr : List (Nat × Ask)} {s' : τ} {ps' : List Prog} (hr : Interleaved (Graph.ops T) s (scripts.map callsP) tr s' ps') :
    (∀ e, HeldIn (Graph.ops T) s' e → Traceable (Graph.ops T) s scripts e) ∧
    ∀ (i : Nat) (calls : List Call) (v : Value), scripts[i]? = some calls → ps'[i]? = some (.ret (.ok v)) →
      (∀ n, v = .network n → ∀ e ∈ n, Traceable (Graph.ops T) s scripts e) ∧ ((∃ n, v = .network n) ∨ WrittenValue calls v) := by
  have hA : ∀ e, Traceable (Graph.ops T) s scripts e → Traceable (Graph.ops T) s scripts (canon e) := by
    rintro e ⟨x, hx, rfl | rfl⟩
    · exact ⟨_, hx, .inr rfl⟩
    · exact ⟨_, hx, .inr (canon_canon x)⟩
  obtain ⟨_, h2, h3⟩ := interleaved_conserves C hA (V := fun i v => ∃ calls, scripts[i]? = some calls ∧ WrittenValue calls v) hs
    (fun e he => ⟨e, .inl he, .inl rfl⟩) (ps := scripts.map callsP) (fun i p hp => by
      rw [List.getElem?_map] at hp
      cases hi : scripts[i]? with
      | none => rw [hi] at hp; cases hp
      | some calls =>
        rw [hi] at hp; cases hp
        have hm := List.mem_of_getElem? hi
        exact safe_callsP calls (fun e he => ⟨e, .inr ⟨calls, hm, .inl he⟩, .inl rfl⟩) (fun v hv => ⟨calls, rfl, hv⟩)
          (fun hd e he => ⟨e, .inr ⟨calls, hm, .inr ⟨hd, he⟩⟩, .inl rfl⟩)) hr
  refine ⟨h2, fun i calls v hi hv => ?_⟩
  obtain ⟨g1, g2⟩ := h3 i _ hv v rfl
  refine ⟨g1, g2.imp id ?_⟩
  rintro ⟨calls', hc, hw⟩
  rw [hi] at hc; cases hc; exact hw

end

/-- C79, all three stores, in every reachable state, any number of scripts at the same time: every entry found in any collection afterwards (and at any
moment in between), and every entry of a network a script returns, was in some collection before, is written in a network in one of the scripts,
or documents a standard command and one of the scripts calls `docs`; a script that returns something else than a network returns a value written in it. -/
theorem C79_no_invention (l : List Op) (scripts : List (List Call)) {tr : List (Nat × Ask)} {ps' : List Prog} :
    (∀ s', Interleaved (Graph.ops Mem.ops) (runOps Mem.ops Mem.new l).2 (scripts.map callsP) tr s' ps' →
      (∀ e, HeldIn (Graph.ops Mem.ops) s' e → Traceable (Graph.ops Mem.ops) (runOps Mem.ops Mem.new l).2 scripts e) ∧
      ∀ (i : Nat) (calls : List Call) (v : Value), scripts[i]? = some calls → ps'[i]? = some (.ret (.ok v)) →
        (∀ n, v = .network n → ∀ e ∈ n, Traceable (Graph.ops Mem.ops) (runOps Mem.ops Mem.new l).2 scripts e) ∧
        ((∃ n, v = .network n) ∨ WrittenValue calls v)) ∧
    (∀ s', Interleaved (Graph.ops Heed.ops) (runOps Heed.ops Heed.new l).2 (scripts.map callsP) tr s' ps' →
      (∀ e, HeldIn (Graph.ops Heed.ops) s' e → Traceable (Graph.ops Heed.ops) (runOps Heed.ops Heed.new l).2 scripts e) ∧
      ∀ (i : Nat) (calls : List Call) (v : Value), scripts[i]? = some calls → ps'[i]? = some (.ret (.ok v)) →
        (∀ n, v = .network n → ∀ e ∈ n, Traceable (Graph.ops Heed.ops) (runOps Heed.ops Heed.new l).2 scripts e) ∧
        ((∃ n, v = .network n) ∨ WrittenValue calls v)) ∧
    (∀ s', Interleaved (Graph.ops Duck.ops) (runOps Duck.ops Duck.new l).2 (scripts.map callsP) tr s' ps' →
      (∀ e, HeldIn (Graph.ops Duck.ops) s' e → Traceable (Graph.ops Duck.ops) (runOps Duck.ops Duck.new l).2 scripts e) ∧
      ∀ (i : Nat) (calls : List Call) (v : Value), scripts[i]? = some calls → ps'[i]? = some (.ret (.ok v)) →
        (∀ n, v = .network n → ∀ e ∈ n, Traceable (Graph.ops Duck.ops) (runOps Duck.ops Duck.new l).2 scripts e) ∧
        ((∃ n, v = .network n) ∨ WrittenValue calls v)) :=
  ⟨fun _ h => traceable_of mem_conserves trivial scripts h, fun _ h => traceable_of heed_conserves (heed_good l) scripts h,
    fun _ h => traceable_of duck_conserves (duck_inv l) scripts h⟩

theorem traceable_alone {T : TripsOps τ} {I : τ → Prop} (C : Conserves T I) {s : τ} (hs : I s) (calls : List Call) :
    (∀ e, HeldIn (Graph.ops T) (runCalls (Graph.ops T) common calls s).2 e → Traceable (Graph.ops T) s [calls] e) ∧
    ∀ v, (runCalls (Graph.ops T) common calls s).1 = .ok v →
      (∀ n, v = .network n → ∀ e ∈ n, Traceable (Graph.ops T) s [calls] e) ∧ ((∃ n, v = .network n) ∨ WrittenValue calls v) := by
  obtain ⟨tr, _, h⟩ := C78_alone (Graph.ops T) s calls
  obtain ⟨h1, h2⟩ := traceable_of C hs [calls] h
  exact ⟨h1, fun v hv => h2 0 calls v rfl (by rw [hv]; rfl)⟩

/-- C79 for one script run alone, on each of the three stores, in every reachable state: what it stores and what it returns. -/
theorem C79_alone (l : List Op) (calls : List Call) :
    (let s := (runOps Mem.ops Mem.new l).2
     (∀ e, HeldIn (Graph.ops Mem.ops) (runCalls (Graph.ops Mem.ops) common calls s).2 e → Traceable (Graph.ops Mem.ops) s [calls] e) ∧
     ∀ v, (runCalls (Graph.ops Mem.ops) common calls s).1 = .ok v →
      (∀ n, v = .network n → ∀ e ∈ n, Traceable (Graph.ops Mem.ops) s [calls] e) ∧ ((∃ n, v = .network n) ∨ WrittenValue calls v)) ∧
    (let s := (runOps Heed.ops Heed.new l).2
     (∀ e, HeldIn (Graph.ops Heed.ops) (runCalls (Graph.ops Heed.ops) common calls s).2 e → Traceable (Graph.ops Heed.ops) s [calls] e) ∧
     ∀ v, (runCalls (Graph.ops Heed.ops) common calls s).1 = .ok v →
      (∀ n, v = .network n → ∀ e ∈ n, Traceable (Graph.ops Heed.ops) s [calls] e) ∧ ((∃ n, v = .network n) ∨ WrittenValue calls v)) ∧
    (let s := (runOps Duck.ops Duck.new l).2
     (∀ e, HeldIn (Graph.ops Duck.ops) (runCalls (Graph.ops Duck.ops) common calls s).2 e → Traceable (Graph.ops Duck.ops) s [calls] e) ∧
     ∀ v, (runCalls (Graph.ops Duck.ops) common calls s).1 = .ok v →
      (∀ n, v = .network n → ∀ e ∈ n, Traceable (Graph.ops Duck.ops) s [calls] e) ∧ ((∃ n, v = .network n) ∨ WrittenValue calls v)) :=
  ⟨traceable_alone mem_conserves trivial calls, traceable_alone heed_conserves (heed_good l) calls, traceable_alone duck_conserves (duck_inv l) calls⟩

/-- C79: nothing comes from nothing: a script with no entries written in it that does not call `docs`, run on a new store of any of the three kinds, leaves
every collection empty and returns no entries. -/
theorem C79_nothing_from_nothing (calls : List Call) (hw : ∀ e, ¬ Written calls e) (hd : ¬ Invokes calls (lit "docs")) :
    ((∀ e, ¬ HeldIn (Graph.ops Mem.ops) (runCalls (Graph.ops Mem.ops) common calls Mem.new).2 e) ∧
      ∀ n, (runCalls (Graph.ops Mem.ops) common calls Mem.new).1 = .ok (.network n) → ∀ e, ¬ e ∈ n) ∧
    ((∀ e, ¬ HeldIn (Graph.ops Heed.ops) (runCalls (Graph.ops Heed.ops) common calls Heed.new).2 e) ∧
      ∀ n, (runCalls (Graph.ops Heed.ops) common calls Heed.new).1 = .ok (.network n) → ∀ e, ¬ e ∈ n) ∧
    ((∀ e, ¬ HeldIn (Graph.ops Duck.ops) (runCalls (Graph.ops Duck.ops) common calls Duck.new).2 e) ∧
      ∀ n, (runCalls (Graph.ops Duck.ops) common calls Duck.new).1 = .ok (.network n) → ∀ e, ¬ e ∈ n) := by
  have key : ∀ {τ : Type} (T : TripsOps τ) (s : τ), (∀ e, ¬ HeldIn (Graph.ops T) s e) → ∀ e, ¬ Traceable (Graph.ops T) s [calls] e := by
    rintro τ T s h e ⟨x, hx, _⟩
    rcases hx with hx | ⟨cs, hcs, hx | hx⟩
    · exact h x hx
    · simp only [List.mem_cons, List.not_mem_nil, or_false] at hcs; subst hcs; exact hw x hx
    · simp only [List.mem_cons, List.not_mem_nil, or_false] at hcs; subst hcs; exact hd hx.1
  obtain ⟨⟨a1, a2⟩, ⟨b1, b2⟩, ⟨c1, c2⟩⟩ := C79_alone [] calls
  have m0 := key Mem.ops Mem.new (by rintro e ⟨c, n, h, _⟩; cases h)
  have h0 := key Heed.ops Heed.new (by
    rintro e ⟨c, n, h, _⟩
    rw [show (Graph.ops Heed.ops).entries Heed.new c = (Heed.ops.triples Heed.new c.text).map _ from rfl,
      show Heed.ops.triples Heed.new c.text = _ from Heed.triples_missing Heed.good_new (by rw [show Heed.world Heed.new _ = _ from Heed.worldOf_new]; rfl)] at h
    cases h)
  have d0 := key Duck.ops Duck.new (by
    rintro e ⟨c, n, h, he⟩
    cases h
    simp at he)
  exact ⟨⟨fun e he => m0 e (a1 e he), fun n hn e he => m0 e ((a2 _ hn).1 n rfl e he)⟩,
    ⟨fun e he => h0 e (b1 e he), fun n hn e he => h0 e ((b2 _ hn).1 n rfl e he)⟩,
    ⟨fun e he => d0 e (c1 e he), fun n hn e he => d0 e ((c2 _ hn).1 n rfl e he)⟩⟩

/-- `useG` writes the entries of `sampleNet`, stores them and returns them; it does not call `docs`. -/
example : (∃ e, HeldIn (Graph.ops Heed.ops) (runCalls (Graph.ops Heed.ops) common useG Heed.new).2 e) ∧
    (runCalls (Graph.ops Heed.ops) common useG Heed.new).1 = .ok (.network (sampleNet.map canon)) ∧
    (∃ e, Written useG e) ∧ ¬ Invokes useG (lit "docs") := by
  refine ⟨⟨(sampleNet.map canon).toList.head (by decide +kernel), .of (lit "G"), sampleNet.map canon, by decide +kernel, ?_⟩, by decide +kernel, ?_, ?_⟩
  · exact BSet.mem_def.mpr (List.head_mem _)
  · refine ⟨sampleNet.toList.head (by decide +kernel), _, List.mem_cons_self, ?_⟩
    simp only [call, WrittenInAny, WrittenIn, or_false, false_or]
    exact BSet.mem_def.mpr (List.head_mem _)
  · rintro ⟨c, hc, h⟩
    simp only [useG, List.mem_cons, List.not_mem_nil, or_false] at hc
    rcases hc with rfl | rfl
    · simp only [call, InvokedInAny, InvokedIn, or_false] at h; revert h; decide
    · simp only [call, InvokedInAny, InvokedIn, or_false] at h; revert h; decide

/-- A script with nothing written in it: it meets the hypotheses of `C79_nothing_from_nothing`. -/
example : (∀ e, ¬ Written useH e) ∧ ¬ Invokes useH (lit "docs") := by
  refine ⟨?_, ?_⟩
  · rintro e ⟨c, hc, h⟩
    simp only [useH, List.mem_cons, List.not_mem_nil, or_false] at hc
    subst hc
    simp only [call, WrittenInAny, WrittenIn, or_false] at h
  · rintro ⟨c, hc, h⟩
    simp only [useH, List.mem_cons, List.not_mem_nil, or_false] at hc
    subst hc
    simp only [call, InvokedInAny, InvokedIn, or_false, List.cons.injEq, Value.element.injEq] at h
    rcases h with h | ⟨e, args, ⟨rfl, _⟩, h⟩
    · revert h; decide
    · revert h; decide

/-- `docs` stored in a collection: documentation entries are then held, and traceable only because the script calls `docs`. -/
example : (runCalls (Graph.ops Mem.ops) common [call "let" [.element (.of (lit "D")), .quote [.element (.of (lit "docs"))]], call "read" [.element (.of (lit "D"))]]
    Mem.new).1.map (fun v => match v with | .network n => n.toList.length | _ => 0) = .ok 9 := by decide +kernel

end Props
end Verif
