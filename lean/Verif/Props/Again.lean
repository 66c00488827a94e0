import Verif.Proofs.Again
import Verif.Props.Footprint
import Verif.Props.ScriptCrash
import Verif.Props.Locality
/-!
# C87: running a script again
-/
namespace Verif
namespace Props
open Spec Eval Steps

/-! ## A `let` step by step -/

section
variable {τ : Type} (T : TripsOps τ)

/-- The three ways a `let` can go. -/
theorem lets_cases (c : Element) (n : Network) (f : Res Value → Prog) (hf : f .panic = .ret .panic) (s : τ) :
    let G := Graph.ops T
    let p := (letP c n).andThen f
    let e1 := exec T s (.addCollection c.text)
    let e2 := exec T e1.2 (.addTriples c.text (n.map Graph.entryToTrip))
    (e1.1 ≠ .ok () ∧ p.run G s = (.panic, e1.2) ∧ asksOf G p s = [.addCollection c] ∧ ∀ i, afterAsks G (i + 1) p s = e1.2) ∨
    (e1.1 = .ok () ∧ e2.1 ≠ .ok () ∧ p.run G s = (.panic, e2.2) ∧ asksOf G p s = [.addCollection c, .addEntries c n] ∧
      afterAsks G 1 p s = e1.2 ∧ ∀ i, afterAsks G (i + 2) p s = e2.2) ∨
    (e1.1 = .ok () ∧ e2.1 = .ok () ∧ p.run G s = (f (.ok emptyNet)).run G e2.2 ∧
      asksOf G p s = .addCollection c :: .addEntries c n :: asksOf G (f (.ok emptyNet)) e2.2 ∧
      afterAsks G 1 p s = e1.2 ∧ ∀ i, afterAsks G (i + 2) p s = afterAsks G i (f (.ok emptyNet)) e2.2) := by
  intro G p e1 e2
  have g1 : perform G s (.addCollection c) = (.unit e1.1.errTodo, e1.2) := rfl
  have g2 : perform G e1.2 (.addEntries c n) = (.unit e2.1.errTodo, e2.2) := rfl
  have hret : ∀ (r : Res Value) (i : Nat) (x : τ), afterAsks G i (.ret r) x = x := by intro r i x; cases i <;> rfl
  by_cases h1 : e1.1 = .ok ()
  · refine .inr ?_
    have g1' : perform G s (.addCollection c) = (.unit (.ok ()), e1.2) := by rw [g1, h1]; rfl
    by_cases h2 : e2.1 = .ok ()
    · have g2' : perform G e1.2 (.addEntries c n) = (.unit (.ok ()), e2.2) := by rw [g2, h2]; rfl
      refine .inr ⟨h1, h2, ?_, ?_, ?_, ?_⟩
      · simp only [p, letP, Prog.andThen, Prog.run, g1', g2']
      · simp only [p, letP, Prog.andThen, asksOf, g1', g2']
      · simp only [p, letP, Prog.andThen, afterAsks, g1']
      · intro i; simp only [p, letP, Prog.andThen, afterAsks, g1', g2']
    · have g2' : perform G e1.2 (.addEntries c n) = (.unit .panic, e2.2) := by
        rw [g2]; congr 2
        cases hx : e2.1 with
        | ok u => exact absurd hx h2
        | err m => rfl
        | panic => rfl
      refine .inl ⟨h1, h2, ?_, ?_, ?_, ?_⟩
      · simp only [p, letP, Prog.andThen, Prog.run, g1', g2', hf]
      · simp only [p, letP, Prog.andThen, asksOf, g1', g2', hf]
      · simp only [p, letP, Prog.andThen, afterAsks, g1']
      · intro i; simp only [p, letP, Prog.andThen, afterAsks, g1', g2', hf, hret]
  · have g1' : perform G s (.addCollection c) = (.unit .panic, e1.2) := by
      rw [g1]; congr 2
      cases hx : e1.1 with
      | ok u => exact absurd hx h1
      | err m => rfl
      | panic => rfl
    refine .inl ⟨h1, ?_, ?_, ?_⟩
    · simp only [p, letP, Prog.andThen, Prog.run, g1', hf]
    · simp only [p, letP, Prog.andThen, asksOf, g1', hf]
    · intro i; simp only [p, letP, Prog.andThen, afterAsks, g1', hf, hret]

/-- The operation on the triples below, if the request is a write. -/
def opOf : Ask → Option Op
  | .addCollection c => some (.addCollection c.text)
  | .addEntries c es => some (.addTriples c.text (es.map Graph.entryToTrip))
  | _ => none

theorem perform_state (s : τ) (q : Ask) : (perform (Graph.ops T) s q).2 =
    match opOf q with
    | some op => (exec T s op).2
    | none => s := by cases q <;> rfl

/-- What every step keeps holds along the way. -/
theorem afterAsks_keeps {P : τ → Prop} {Q : Ask → Prop} (hstep : ∀ s q op, P s → Q q → opOf q = some op → P (exec T s op).2) (p : Prog) :
    ∀ s, P s → (∀ q ∈ asksOf (Graph.ops T) p s, Q q) → ∀ i, P (afterAsks (Graph.ops T) i p s) := by
  induction p with
  | ret r => intro s h _ i; cases i <;> exact h
  | ask q k ih =>
    intro s h hq i
    cases i with
    | zero => exact h
    | succ i =>
      refine ih _ _ ?_ (fun q' hq' => hq q' (by simp only [asksOf, List.mem_cons]; exact .inr hq')) i
      rw [perform_state]
      cases ho : opOf q with
      | none => exact h
      | some op => exact hstep s q op h (hq q (by simp [asksOf])) ho

theorem opOf_writing {q : Ask} {op : Op} (h : opOf q = some op) : Writing q ∧ op.target = askName q := by
  cases q <;> simp only [opOf, Option.some.injEq, reduceCtorEq] at h <;> subst h <;> exact ⟨trivial, rfl⟩

end

/-! ## The in-memory store -/

theorem mem_step_other {s : Mem} {op : Op} {c : Str} (h : c ≠ op.target) : (exec Mem.ops s op).2.colls.get? c = s.colls.get? c :=
  mem_get_of_world (mem_refines.other s op c trivial h)

/-- Two stores that differ only in collections the program writes before it reads them. -/
theorem mem_blind {p : Prog} (hp : Tame (fun _ => True) (fun _ => True) p) : ∀ s t : Mem,
    (∀ c, s.colls.get? c ≠ t.colls.get? c → FirstWritten c (asksOf Graph.memOps p s)) → p.run Graph.memOps t = p.run Graph.memOps s := by
  induction hp with
  | ret r =>
    intro s t h
    have : t = s := by
      have : t.colls = s.colls := BMap.ext_get fun c => by
        apply Classical.byContradiction
        intro hc
        obtain ⟨a, q, b, e, _⟩ := h c fun e => hc e.symm
        cases a <;> simp [asksOf] at e
      cases t; cases s; simp_all
    rw [this]
  | @entries c k _ _ _ ih =>
    intro s t h
    have hc : s.colls.get? c.text = t.colls.get? c.text := by
      apply Classical.byContradiction
      intro hc
      exact firstWritten_not_read (h _ hc) (fun h => h) rfl
    have e : perform Graph.memOps t (.entries c) = ((perform Graph.memOps s (.entries c)).1, t) := by
      simp only [perform, Graph.memOps, Graph.ops, Graph.entries, Mem.ops, Mem.triples, hc]
    simp only [Prog.run, e]
    exact ih _ s t fun d hd => firstWritten_of_cons (h d hd) (.inr fun h => h)
  | @filter c q k _ _ _ ih =>
    intro s t h
    have hc : s.colls.get? c.text = t.colls.get? c.text := by
      apply Classical.byContradiction
      intro hc
      exact firstWritten_not_read (h _ hc) (fun h => h) rfl
    have e : perform Graph.memOps t (.filter c q) = ((perform Graph.memOps s (.filter c q)).1, t) := by
      simp only [perform, Graph.memOps, Graph.ops, Graph.filter, Mem.ops, Mem.filter, hc]
    simp only [Prog.run, e]
    exact ih _ s t fun d hd => firstWritten_of_cons (h d hd) (.inr fun h => h)
  | @lets c n f _ hf _ ih =>
    intro s t h
    rw [run_andThen, run_andThen, run_letP, run_letP, memLet, memLet]
    refine ih _ _ ?_
    intro d hd
    have hdc : d ≠ c.text := by rintro rfl; simp at hd
    simp only [BMap.get?_insert_ne _ _ hdc] at hd
    have hfw := h d hd
    rcases lets_cases Mem.ops c n f hf s with ⟨h1, _⟩ | ⟨_, h2, _⟩ | ⟨_, _, _, e, _⟩
    · exact absurd rfl h1
    · refine absurd ?_ h2
      simp [exec, Mem.ops, Mem.addCollection, Mem.addTriples]
    · have e' : asksOf Graph.memOps ((letP c n).andThen f) s = _ := e
      have hst : (exec Mem.ops (exec Mem.ops s (.addCollection c.text)).2 (.addTriples c.text (n.map Graph.entryToTrip))).2 =
          ⟨s.colls.insert c.text (BSet.union ∅ (n.map Graph.entryToTrip))⟩ := by
        simp only [exec, Mem.ops, Mem.addCollection, Mem.addTriples, BMap.get?_insert_self]
        congr 1
        exact BMap.ext_get fun k => by
          by_cases e : k = c.text
          · subst e; simp
          · rw [BMap.get?_insert_ne _ _ e, BMap.get?_insert_ne _ _ e, BMap.get?_insert_ne _ _ e]
      rw [e', hst] at hfw
      exact firstWritten_of_cons (firstWritten_of_cons hfw (.inl fun e => hdc e.symm)) (.inl fun e => hdc e.symm)

/-- C87, in-memory store: a script cannot tell two stores apart that differ only in collections it writes before it reads them, and
the stores it leaves are then the same: its old contents never matter to a collection that is written first. -/
theorem C87_mem_blind (s t : Mem) (calls : List Call)
    (h : ∀ c, Mem.ops.triples s c ≠ Mem.ops.triples t c → FirstWritten c (asksOf Graph.memOps (callsP calls) s)) :
    runCalls Graph.memOps common calls t = runCalls Graph.memOps common calls s := by
  rw [← run_callsP, ← run_callsP]
  refine mem_blind (tame_callsP calls) s t fun c hc => h c fun e => hc ?_
  simp only [Mem.ops, Mem.triples] at e
  cases h1 : s.colls.get? c <;> cases h2 : t.colls.get? c <;> rw [h1, h2] at e <;> simp_all

/-- C87, in-memory store: a script that reads no collection before it writes it can be run again, from the start, after any number of
its store operations (in particular after all of them): result and store are those of running it once. -/
theorem C87_mem_again (s : Mem) (calls : List Call) (h : NoReadBeforeWrite (asksOf Graph.memOps (callsP calls) s)) (i : Nat) :
    runCalls Graph.memOps common calls (afterAsks Graph.memOps i (callsP calls) s) = runCalls Graph.memOps common calls s := by
  refine C87_mem_blind s _ calls fun c hc => ?_
  apply Classical.byContradiction
  intro hf
  have hq : ∀ q ∈ asksOf Graph.memOps (callsP calls) s, ¬ (Writing q ∧ askName q = c) := by
    rintro q hq ⟨hw, rfl⟩
    exact hf (firstWritten_of h hq hw)
  have := afterAsks_keeps Mem.ops (P := fun t => t.colls.get? c = s.colls.get? c) (Q := fun q => ¬ (Writing q ∧ askName q = c))
    (fun t q op ht hn ho => by
      obtain ⟨hw, e⟩ := opOf_writing ho
      rw [mem_step_other (fun h => hn ⟨hw, by rw [← e, ← h]⟩)]; exact ht) (callsP calls) s rfl hq i
  refine hc ?_
  simp only [Mem.ops, Mem.triples]
  rw [show (afterAsks Graph.memOps i (callsP calls) s).colls.get? c = _ from this]

/-! ## The LMDB-backed store -/

/-- A state all of whose names and texts are legal. -/
def Tidy (s : Heed) : Prop := Heed.Clean s ∧ ∃ D, Heed.Dead s D

theorem tidy_step {s : Heed} {q : Ask} {op : Op} (h : Tidy s) (hq : LegalAsk q) (ho : opOf q = some op) : Tidy (exec Heed.ops s op).2 := by
  obtain ⟨h, D, hd⟩ := h
  have hl : Heed.LegalIn op := by
    cases q with
    | entries c => cases ho
    | filter c p => cases ho
    | addCollection c => simp only [opOf, Option.some.injEq] at ho; subst ho; exact hq
    | addEntries c es =>
      simp only [opOf, Option.some.injEq] at ho; subst ho
      intro t ht v hv
      rw [BSet.mem_map] at ht
      obtain ⟨e, he, rfl⟩ := ht
      exact hq e he v hv
  obtain ⟨a, ⟨D', b, _⟩, _⟩ := Heed.clean_step h hd hl
  exact ⟨a, D', b⟩

theorem keepsAll_refl (s : Heed) : KeepsAll s s := fun _ ts h => ⟨ts, h, fun _ h => h⟩

theorem opOf_adds {q : Ask} {op : Op} (h : opOf q = some op) : (∃ c, op = .addCollection c) ∨ ∃ c ts, op = .addTriples c ts := by
  cases q <;> simp only [opOf, Option.some.injEq, reduceCtorEq] at h <;> subst h
  · exact .inl ⟨_, rfl⟩
  · exact .inr ⟨_, _, rfl⟩

theorem heed_listed_of_triples {s : Heed} (hg : Heed.Good s) {c : Str} {ts : BSet Trip} (h : Heed.ops.triples s c = .ok ts) : Listed Heed.ops s c := by
  rw [heed_listed hg, Option.isSome_iff_ne_none]
  intro hn
  rw [show Heed.ops.triples s c = .panic from Heed.triples_missing hg hn] at h
  cases h

theorem heed_again {p : Prog} (hp : Tame (fun _ => True) (fun _ => True) p) : ∀ s : Heed, Tidy s →
    (∀ q ∈ asksOf (Graph.ops Heed.ops) p s, LegalAsk q) → NoReadThenWrite (asksOf (Graph.ops Heed.ops) p s) →
    ∀ i, p.run (Graph.ops Heed.ops) (afterAsks (Graph.ops Heed.ops) i p s) = p.run (Graph.ops Heed.ops) s := by
  induction hp with
  | ret r => intro s _ _ _ i; cases i <;> rfl
  | @entries c k _ _ _ ih =>
    intro s h hl hr i
    cases i with
    | zero => rfl
    | succ i =>
      have hl' : ∀ q ∈ asksOf (Graph.ops Heed.ops) (k (perform (Graph.ops Heed.ops) s (.entries c)).1) s, LegalAsk q :=
        fun q hq => hl q (by simp only [asksOf, List.mem_cons]; exact .inr hq)
      have hw := noReadThenWrite_head hr trivial
      have key := afterAsks_keeps Heed.ops (P := fun t => Heed.Good t ∧ Heed.ops.triples t c.text = Heed.ops.triples s c.text)
        (Q := fun q => Writing q → askName q ≠ c.text)
        (fun t q op ht hn ho => by
          obtain ⟨w, e⟩ := opOf_writing ho
          refine ⟨Heed.good_exec ht.1 true op, ?_⟩
          rw [(heed_refines.isolated ht.1 op c.text (fun h => hn w (by rw [← e, ← h]))).1]; exact ht.2) _ s ⟨h.1.good, rfl⟩ hw i
      have e : (perform (Graph.ops Heed.ops) (afterAsks (Graph.ops Heed.ops) (i + 1) (.ask (.entries c) k) s) (.entries c)) =
          ((perform (Graph.ops Heed.ops) s (.entries c)).1, afterAsks (Graph.ops Heed.ops) (i + 1) (.ask (.entries c) k) s) := by
        refine Prod.ext ?_ rfl
        show Answer.network ((Heed.ops.triples _ c.text).map _) = Answer.network ((Heed.ops.triples s c.text).map _)
        rw [show Heed.ops.triples (afterAsks (Graph.ops Heed.ops) (i + 1) (.ask (.entries c) k) s) c.text = _ from key.2]
      simp only [Prog.run]
      rw [e]
      exact ih _ s h hl' (noReadThenWrite_tail hr) i
  | @filter c p k _ hk _ ih =>
    intro s h hl hr i
    cases i with
    | zero => rfl
    | succ i => exact ih .panic s h (fun q hq => hl q (by simp only [asksOf, List.mem_cons]; exact .inr hq)) (noReadThenWrite_tail hr) i
  | @lets c n f _ hf _ ih =>
    intro s h hl hr i
    cases i with
    | zero => rfl
    | succ i =>
      have l1 : LegalAsk (.addCollection c) := hl _ (by rw [asksOf_andThen]; simp [letP, asksOf])
      have same : ∀ op, (exec Heed.ops s op).1 ≠ .ok () → (exec Heed.ops s op).2 = s := by
        intro op ho
        rw [exec_heed] at ho ⊢
        exact (Heed.exec_spec h.1.good true op).2.1 ho
      have g1 : Tidy (exec Heed.ops s (.addCollection c.text)).2 := tidy_step h l1 rfl
      have same1 : ∀ op, (exec Heed.ops (exec Heed.ops s (.addCollection c.text)).2 op).1 ≠ .ok () →
          (exec Heed.ops (exec Heed.ops s (.addCollection c.text)).2 op).2 = (exec Heed.ops s (.addCollection c.text)).2 := by
        intro op ho
        rw [exec_heed (exec Heed.ops s (.addCollection c.text)).2] at ho ⊢
        exact (Heed.exec_spec g1.1.good true op).2.1 ho
      have lst : (exec Heed.ops s (.addCollection c.text)).1 = .ok () → Listed Heed.ops (exec Heed.ops s (.addCollection c.text)).2 c.text := by
        intro h1
        rw [heed_listed g1.1.good, Heed.worldOf_exec h.1.good (.addCollection c.text) l1, h1]
        simp only [applyEvent, apply]
        cases hx : Heed.worldOf s c.text <;> simp [hx]
      have fix1 : (exec Heed.ops s (.addCollection c.text)).1 = .ok () →
          exec Heed.ops (exec Heed.ops s (.addCollection c.text)).2 (.addCollection c.text) = (.ok (), (exec Heed.ops s (.addCollection c.text)).2) :=
        fun h1 => (Heed.again_nothing g1.1 (lst h1)).1
      rcases lets_cases Heed.ops c n f hf s with ⟨h1, e1, e2, e3⟩ | ⟨h1, h2, e1, e2, e3, e4⟩ | ⟨h1, h2, e1, e2, e3, e4⟩
      · rw [e3, same _ h1]
      · have back : ∀ t, t = (exec Heed.ops s (.addCollection c.text)).2 → ((letP c n).andThen f).run (Graph.ops Heed.ops) t =
            ((letP c n).andThen f).run (Graph.ops Heed.ops) s := by
          rintro t rfl
          rcases lets_cases Heed.ops c n f hf (exec Heed.ops s (.addCollection c.text)).2 with ⟨k1, _⟩ | ⟨k1, k2, k3, _⟩ | ⟨k1, k2, _⟩
          · rw [fix1 h1] at k1; exact absurd rfl k1
          · rw [k3, e1, fix1 h1]
          · rw [fix1 h1] at k2; exact absurd k2 h2
        cases i with
        | zero => rw [e3]; exact back _ rfl
        | succ i => rw [e4, same1 _ h2]; exact back _ rfl
      · have l2 : LegalAsk (.addEntries c n) := hl _ (by rw [e2]; simp)
        have g2 := tidy_step g1 l2 rfl
        have ls1 := lst h1
        have tr2 : ∃ us, Heed.ops.triples (exec Heed.ops (exec Heed.ops s (.addCollection c.text)).2 (.addTriples c.text (n.map Graph.entryToTrip))).2
            c.text = .ok us ∧ ∀ t ∈ n.map Graph.entryToTrip, t ∈ us := by
          obtain ⟨w, hw⟩ := Option.isSome_iff_exists.mp ((heed_listed g1.1.good c.text).mp ls1)
          have hw2 := Heed.worldOf_exec g1.1.good (.addTriples c.text (n.map Graph.entryToTrip)) trivial
          rw [h2] at hw2
          have : Heed.worldOf (exec Heed.ops (exec Heed.ops s (.addCollection c.text)).2 (.addTriples c.text (n.map Graph.entryToTrip))).2 c.text =
              some (fun x => w x ∨ x ∈ n.map Graph.entryToTrip) := by
            rw [hw2]; simp [applyEvent, apply, hw]
          obtain ⟨us, k1, k2⟩ := (heed_agrees g2.1.good).2 c.text _ this
          exact ⟨us, k1, fun t ht => (k2 t).mpr (.inr ht)⟩
        cases i with
        | zero =>
          rw [e3]
          rcases lets_cases Heed.ops c n f hf (exec Heed.ops s (.addCollection c.text)).2 with ⟨k1, _⟩ | ⟨k1, k2, k3, _⟩ | ⟨k1, k2, k3, _⟩
          · rw [fix1 h1] at k1; exact absurd rfl k1
          · rw [fix1 h1] at k2; exact absurd h2 k2
          · rw [k3, e1, fix1 h1]
        | succ i =>
          rw [e4, e1]
          rw [e2] at hl hr
          have hl' := fun q hq => hl q (List.mem_cons_of_mem _ (List.mem_cons_of_mem _ hq))
          have hr' := noReadThenWrite_tail (noReadThenWrite_tail hr)
          rw [← ih _ g2 hl' hr' i]
          -- a later state: both writes find what they write
          have key := afterAsks_keeps Heed.ops (P := fun t => Tidy t ∧
              KeepsAll (exec Heed.ops (exec Heed.ops s (.addCollection c.text)).2 (.addTriples c.text (n.map Graph.entryToTrip))).2 t)
            (Q := LegalAsk) (fun t q op ht hq ho => ⟨tidy_step ht.1 hq ho, keepsAll_step ht.1.1.good op (opOf_adds ho) ht.2⟩)
            (f (.ok emptyNet)) _ ⟨g2, keepsAll_refl _⟩ hl' i
          revert key
          generalize afterAsks (Graph.ops Heed.ops) i (f (.ok emptyNet)) _ = d
          rintro ⟨gd, kd⟩
          obtain ⟨us, u1, u2⟩ := tr2
          obtain ⟨vs, v1, v2⟩ := kd _ _ u1
          have ld := heed_listed_of_triples gd.1.good v1
          have a1 : exec Heed.ops d (.addCollection c.text) = (.ok (), d) := (Heed.again_nothing gd.1 ld).1
          have a2 : exec Heed.ops d (.addTriples c.text (n.map Graph.entryToTrip)) = (.ok (), d) := by
            have := (Heed.again_nothing gd.1 ld).2 (n.map Graph.entryToTrip) vs v1 fun t ht => v2 t (u2 t ht)
            simp only [exec, this]
          rcases lets_cases Heed.ops c n f hf d with ⟨k1, _⟩ | ⟨k1, k2, k3, _⟩ | ⟨k1, k2, k3, _⟩
          · rw [a1] at k1; exact absurd rfl k1
          · rw [a1, a2] at k2; exact absurd rfl k2
          · rw [k3, a1, a2]

theorem perform_watched {s : Heed} (hg : Heed.Good s) (l : List Heed) (q : Ask) :
    ∃ m, perform (Graph.ops watched) (s, l) q = ((perform (Graph.ops Heed.ops) s q).1, (perform (Graph.ops Heed.ops) s q).2, l ++ m) ∧
      ∀ d ∈ m, d = s ∨ d = (perform (Graph.ops Heed.ops) s q).2 := by
  cases q with
  | entries c => exact ⟨[], by simp [perform, Graph.ops, Graph.entries, watched], by simp⟩
  | filter c p => exact ⟨[], by simp [perform, Graph.ops, Graph.filter, watched], by simp⟩
  | addCollection c =>
    have h1 := exec_watched (s, l) (.addCollection c.text)
    have h2 := exec_heed s (.addCollection c.text)
    refine ⟨(Heed.execTx true s (.addCollection c.text)).2.seen, ?_, ?_⟩
    · show (Answer.unit (exec watched (s, l) (.addCollection c.text)).1.errTodo, (exec watched (s, l) (.addCollection c.text)).2) =
        (Answer.unit (exec Heed.ops s (.addCollection c.text)).1.errTodo, (exec Heed.ops s (.addCollection c.text)).2, _)
      rw [h1, h2]
    · intro d hd
      show d = s ∨ d = (exec Heed.ops s (.addCollection c.text)).2
      rw [h2]; exact (Heed.exec_spec hg true _).1 d hd
  | addEntries c es =>
    have h1 := exec_watched (s, l) (.addTriples c.text (es.map Graph.entryToTrip))
    have h2 := exec_heed s (.addTriples c.text (es.map Graph.entryToTrip))
    refine ⟨(Heed.execTx true s (.addTriples c.text (es.map Graph.entryToTrip))).2.seen, ?_, ?_⟩
    · show (Answer.unit (exec watched (s, l) (.addTriples c.text (es.map Graph.entryToTrip))).1.errTodo,
          (exec watched (s, l) (.addTriples c.text (es.map Graph.entryToTrip))).2) =
        (Answer.unit (exec Heed.ops s (.addTriples c.text (es.map Graph.entryToTrip))).1.errTodo,
          (exec Heed.ops s (.addTriples c.text (es.map Graph.entryToTrip))).2, _)
      rw [h1, h2]
    · intro d hd
      show d = s ∨ d = (exec Heed.ops s (.addTriples c.text (es.map Graph.entryToTrip))).2
      rw [h2]; exact (Heed.exec_spec hg true _).1 d hd

theorem watched_states (p : Prog) : ∀ (s : Heed) (l : List Heed), Heed.Good s →
    ∀ d ∈ (p.run (Graph.ops watched) (s, l)).2.2, d ∈ l ∨ ∃ i, d = afterAsks (Graph.ops Heed.ops) i p s := by
  induction p with
  | ret r => intro s l _ d hd; exact .inl hd
  | ask q k ih =>
    intro s l hg d hd
    obtain ⟨m, e, hm⟩ := perform_watched hg l q
    simp only [Prog.run, e] at hd
    have hg' : Heed.Good (perform (Graph.ops Heed.ops) s q).2 := by
      rw [perform_state]
      cases opOf q with
      | none => exact hg
      | some op => exact Heed.good_exec hg true op
    rcases ih _ _ _ hg' d hd with hd | ⟨i, rfl⟩
    · rcases List.mem_append.mp hd with hd | hd
      · exact .inl hd
      · rcases hm d hd with rfl | rfl
        · exact .inr ⟨0, rfl⟩
        · exact .inr ⟨1, by simp [afterAsks]⟩
    · exact .inr ⟨i + 1, rfl⟩

theorem afterAsks_end (L : LigOps σ) (p : Prog) : ∀ s : σ, ∃ i, afterAsks L i p s = (p.run L s).2 := by
  induction p with
  | ret r => intro s; exact ⟨0, rfl⟩
  | ask q k ih => intro s; obtain ⟨i, hi⟩ := ih _ _; exact ⟨i + 1, hi⟩

/-- C87, LMDB-backed store: a script that writes no collection after reading it, with names and texts of 1 to 511 bytes, can be run again
from the start after any number of its store operations, after all of them, and from whatever is found if the process ended in
the middle of it: result and environment are then, record for record, those of running it once without interruption. -/
theorem C87_lmdb_again (l : List Op) (hl : ∀ op ∈ l, Heed.LegalIn op) (calls : List Call) :
    let G := Graph.ops Heed.ops
    let s := (runOps Heed.ops Heed.new l).2
    (∀ q ∈ asksOf G (callsP calls) s, LegalAsk q) → NoReadThenWrite (asksOf G (callsP calls) s) →
    (∀ i, runCalls G common calls (afterAsks G i (callsP calls) s) = runCalls G common calls s) ∧
    runCalls G common calls (runCalls G common calls s).2 = runCalls G common calls s ∧
    ∀ d ∈ crashStates calls s, runCalls G common calls d = runCalls G common calls s := by
  intro G s hk hr
  obtain ⟨h, ⟨D, hD, _⟩, _⟩ := Heed.clean_runOps l Heed.new [] Heed.clean_new Heed.dead_new hl
  have key := heed_again (tame_callsP calls) s ⟨h, D, hD⟩ hk hr
  simp only [run_callsP] at key
  refine ⟨key, ?_, ?_⟩
  · obtain ⟨i, hi⟩ := afterAsks_end G (callsP calls) s
    have := key i
    rw [hi, run_callsP] at this
    exact this
  · intro d hd
    unfold crashStates at hd
    rw [← run_callsP] at hd
    rcases watched_states _ s [] h.good d hd with hd | ⟨i, rfl⟩
    · cases hd
    · exact key i

/-! ## The DuckDB-backed store -/

theorem duck_listed_step {s : Duck} (hs : Duck.Inv s) {op : Op} (ho : (∃ c, op = .addCollection c) ∨ ∃ c ts, op = .addTriples c ts) {c : Str}
    (h : (Duck.world s c).isSome) : (Duck.world (exec Duck.ops s op).2 c).isSome := by
  rw [duck_refines.step s op hs trivial]
  unfold applyEvent
  cases (exec Duck.ops s op).1 with
  | err m => exact h
  | panic => exact h
  | ok u =>
    rcases ho with ⟨d, rfl⟩ | ⟨d, ts, rfl⟩
    · simp only [apply]
      cases hx : Duck.world s d with
      | none => by_cases e : c = d <;> simp [World.set, e, h]
      | some p => exact h
    · simp only [apply]
      cases hx : Duck.world s d with
      | none => exact h
      | some p => by_cases e : c = d <;> simp [World.set, e, h]

theorem duck_again {p : Prog} (hp : Tame (fun _ => True) (fun _ => True) p) : ∀ s : Duck, Duck.Inv s →
    NoReadThenWrite (asksOf (Graph.ops Duck.ops) p s) → ∀ i, (∃ q ∈ (asksOf (Graph.ops Duck.ops) p s).take i, Writing q) →
    p.run (Graph.ops Duck.ops) (afterAsks (Graph.ops Duck.ops) i p s) = (.panic, afterAsks (Graph.ops Duck.ops) i p s) := by
  induction hp with
  | ret r => rintro s _ _ i ⟨q, hq, _⟩; simp [asksOf] at hq
  | @entries c k _ _ _ ih =>
    intro s h hr i hi
    cases i with
    | zero => obtain ⟨q, hq, _⟩ := hi; simp at hq
    | succ i =>
      have hw := noReadThenWrite_head hr trivial
      have key := afterAsks_keeps Duck.ops (P := fun t => Duck.Inv t ∧ Duck.ops.triples t c.text = Duck.ops.triples s c.text)
        (Q := fun q => Writing q → askName q ≠ c.text)
        (fun t q op ht hn ho => by
          obtain ⟨w, e⟩ := opOf_writing ho
          refine ⟨duck_refines.inv t op ht.1, ?_⟩
          rw [(duck_refines.isolated ht.1 op c.text (fun h => hn w (by rw [← e, ← h]))).1]; exact ht.2) _ s ⟨h, rfl⟩ hw i
      have e : (perform (Graph.ops Duck.ops) (afterAsks (Graph.ops Duck.ops) (i + 1) (.ask (.entries c) k) s) (.entries c)) =
          ((perform (Graph.ops Duck.ops) s (.entries c)).1, afterAsks (Graph.ops Duck.ops) (i + 1) (.ask (.entries c) k) s) := by
        refine Prod.ext ?_ rfl
        show Answer.network ((Duck.ops.triples _ c.text).map _) = Answer.network ((Duck.ops.triples s c.text).map _)
        rw [show Duck.ops.triples (afterAsks (Graph.ops Duck.ops) (i + 1) (.ask (.entries c) k) s) c.text = _ from key.2]
      simp only [Prog.run]
      rw [e]
      refine ih _ s h (noReadThenWrite_tail hr) i ?_
      obtain ⟨q, hq, w⟩ := hi
      simp only [asksOf, List.take_succ_cons, List.mem_cons] at hq
      rcases hq with rfl | hq
      · exact absurd w (by simp [Writing])
      · exact ⟨q, hq, w⟩
  | @filter c p k _ hk _ ih =>
    intro s h hr i hi
    cases i with
    | zero => obtain ⟨q, hq, _⟩ := hi; simp at hq
    | succ i =>
      obtain ⟨q, hq, w⟩ := hi
      simp only [asksOf, List.take_succ_cons, List.mem_cons] at hq
      rcases hq with rfl | hq
      · exact absurd w (by simp [Writing])
      · rw [show (perform (Graph.ops Duck.ops) s (.filter c p)).1 = .network .panic from rfl, hk] at hq
        simp [asksOf] at hq
  | @lets c n f _ hf _ ih =>
    intro s h hr i hi
    cases i with
    | zero => obtain ⟨q, hq, _⟩ := hi; simp at hq
    | succ i =>
      have quiet : (exec Duck.ops s (.addCollection c.text)).1 ≠ .ok () → (exec Duck.ops s (.addCollection c.text)).2 = s := by
        intro hne
        simp only [exec, Duck.ops, Duck.addCollection] at hne ⊢
        split at hne <;> simp_all
      have pan : ∀ d, Duck.Inv d → (Duck.world d c.text).isSome → ((letP c n).andThen f).run (Graph.ops Duck.ops) d = (.panic, d) := by
        intro d hd hw
        obtain ⟨_, _, h3⟩ := Duck.exec_spec hd (.addCollection c.text)
        simp only [hw, if_true] at h3
        rcases lets_cases Duck.ops c n f hf d with ⟨k1, k2, _⟩ | ⟨k1, _⟩ | ⟨k1, _⟩
        · rw [k2]
          congr 1
          have := hw
          simp only [exec, Duck.ops, Duck.addCollection] at k1 ⊢
          split at k1 <;> simp_all
        · rw [h3] at k1; cases k1
        · rw [h3] at k1; cases k1
      rcases lets_cases Duck.ops c n f hf s with ⟨h1, e1, e2, e3⟩ | ⟨h1, h2, e1, e2, e3, e4⟩ | ⟨h1, h2, e1, e2, e3, e4⟩
      · rw [e3]
        rw [quiet h1] at e1 ⊢
        exact e1
      all_goals
        have w1 : (Duck.world (exec Duck.ops s (.addCollection c.text)).2 c.text).isSome := by
          rw [duck_refines.step s _ h trivial, h1]
          simp only [applyEvent, apply]
          cases hx : Duck.world s c.text <;> simp [World.set, hx]
        have i1 := duck_refines.inv s (.addCollection c.text) h
        have i2 := duck_refines.inv _ (.addTriples c.text (n.map Graph.entryToTrip)) i1
        have w2 := duck_listed_step i1 (op := .addTriples c.text (n.map Graph.entryToTrip)) (.inr ⟨_, _, rfl⟩) w1
      · cases i with
        | zero => rw [e3]; exact pan _ i1 w1
        | succ i => rw [e4]; exact pan _ i2 w2
      · cases i with
        | zero => rw [e3]; exact pan _ i1 w1
        | succ i =>
          rw [e4]
          have key := afterAsks_keeps Duck.ops (P := fun t => Duck.Inv t ∧ (Duck.world t c.text).isSome) (Q := fun _ => True)
            (fun t q op ht _ ho => ⟨duck_refines.inv t op ht.1, duck_listed_step ht.1 (opOf_adds ho) ht.2⟩)
            (f (.ok emptyNet)) _ ⟨i2, w2⟩ (fun _ _ => trivial) i
          exact pan _ key.1 key.2

/-- C87, DuckDB-backed store: a script that writes no collection after reading it cannot be run again once it has written something:
the second run panics (at the `let` of a name that now exists), and changes nothing. -/
theorem C87_duck_again (l : List Op) (calls : List Call) :
    let G := Graph.ops Duck.ops
    let s := (runOps Duck.ops Duck.new l).2
    NoReadThenWrite (asksOf G (callsP calls) s) → ∀ i, (∃ q ∈ (asksOf G (callsP calls) s).take i, Writing q) →
    runCalls G common calls (afterAsks G i (callsP calls) s) = (.panic, afterAsks G i (callsP calls) s) := by
  intro G s hr i hi
  have := duck_again (tame_callsP calls) s (duck_inv l) hr i hi
  rwa [run_callsP] at this

/-- C87: whether a script writes after reading can be told from the script alone, for any store: it is enough that nothing a call reads is
written by that call or a later one. -/
theorem C87_from_the_text (L : LigOps σ) (s : σ) (calls : List Call) (h : WritesBeforeReads calls) :
    NoReadThenWrite (asksOf L (callsP calls) s) ∧ NoReadBeforeWrite (asksOf L (callsP calls) s) :=
  have h' := noReadThenWrite_loop L calls h emptyNet s
  ⟨h', noReadThenWrite_weak h'⟩

/-! ## Examples -/

/-- `let U (read T), let V {x : y}, read U`. -/
def copyTwice : List Call :=
  [call "let" [.element (.of (lit "U")), .quote [.element (.of (lit "read")), .element (.of (lit "T"))]],
   call "let" [.element (.of (lit "V")), .network (BSet.ofList [.ext (.of (lit "x")) (.of (lit "y"))])],
   call "read" [.element (.of (lit "U"))]]

theorem copyTwice_order : WritesBeforeReads copyTwice := by
  have r0 : ∀ n, CallReads n (call "let" [.element (.of (lit "U")), .quote [.element (.of (lit "read")), .element (.of (lit "T"))]]) →
      n.text = lit "T" := by
    intro n h
    rcases h with ⟨h, _⟩ | h
    · exact absurd h (by decide)
    · simp only [call, ReadsInList, ReadsIn, or_false, false_or, List.cons.injEq, Value.element.injEq] at h
      obtain ⟨e, rest, h1, _⟩ := h
      rw [← h1.2.1]
  have r1 : ∀ n, ¬ CallReads n (call "let" [.element (.of (lit "V")), .network (BSet.ofList [.ext (.of (lit "x")) (.of (lit "y"))])]) := by
    rintro n (⟨h, _⟩ | h)
    · exact absurd h (by decide)
    · simp only [call, ReadsInList, ReadsIn, or_false] at h
  have l0 : ∀ n, CallLets n (call "let" [.element (.of (lit "U")), .quote [.element (.of (lit "read")), .element (.of (lit "T"))]]) →
      n.text = lit "U" := by
    rintro n (⟨_, rest, h⟩ | h)
    · simp only [call, List.cons.injEq, Value.element.injEq] at h
      rw [← h.1]
    · simp only [call, LetsInList, LetsIn, or_false, false_or, List.cons.injEq, Value.element.injEq] at h
      obtain ⟨e, rest, h1, h2⟩ := h
      rw [← h1.1] at h2
      exact absurd h2 (by decide)
  have l1 : ∀ n, CallLets n (call "let" [.element (.of (lit "V")), .network (BSet.ofList [.ext (.of (lit "x")) (.of (lit "y"))])]) →
      n.text = lit "V" := by
    rintro n (⟨_, rest, h⟩ | h)
    · simp only [call, List.cons.injEq, Value.element.injEq] at h
      rw [← h.1]
    · simp only [call, LetsInList, LetsIn, or_false] at h
  have l2 : ∀ n, ¬ CallLets n (call "read" [.element (.of (lit "U"))]) := by
    rintro n (⟨h, _⟩ | h)
    · exact absurd h (by decide)
    · simp only [call, LetsInList, LetsIn, or_false] at h
  intro i j c d n m hij hi hj hr hl
  match i, j, hij with
  | 0, 0, _ => cases hi; cases hj; rw [r0 n hr, l0 m hl]; decide
  | 0, 1, _ => cases hi; cases hj; rw [r0 n hr, l1 m hl]; decide
  | 0, 2, _ => cases hj; exact absurd hl (l2 m)
  | 1, _, _ => cases hi; exact absurd hr (r1 n)
  | 2, 2, _ => cases hj; exact absurd hl (l2 m)
  | 0, j + 3, _ => cases hj
  | 2, j + 3, _ => cases hj
  | i + 3, j, _ => cases hi

/-- The script copies and reads something. -/
example : (asksOf Graph.memOps (callsP copyTwice) (runOps Mem.ops Mem.new sampleOps).2).length = 6 ∧
    (runCalls Graph.memOps common copyTwice (runOps Mem.ops Mem.new sampleOps).2).1 ≠ .ok (.network ∅) := by decide +kernel

example := C87_mem_again (runOps Mem.ops Mem.new sampleOps).2 copyTwice (C87_from_the_text _ _ _ copyTwice_order).2

/-- The stores differ in `U`, which the script writes first. -/
example := C87_mem_blind (runOps Mem.ops Mem.new sampleOps).2 (runOps Mem.ops Mem.new (sampleOps ++ [.addCollection (lit "U")])).2 copyTwice (by
  intro c hc
  have hu : c = lit "U" := by
    apply Classical.byContradiction
    intro h
    refine hc ?_
    rw [Heed.runOps_append]
    simp only [runOps]
    have := mem_step_other (s := (runOps Mem.ops Mem.new sampleOps).2) (op := .addCollection (lit "U")) (c := c) h
    show Mem.triples _ c = Mem.triples _ c
    simp only [Mem.triples]
    rw [this]
  subst hu
  exact firstWritten_of (q' := .addCollection (.of (lit "U"))) (C87_from_the_text _ _ _ copyTwice_order).2 (by decide +kernel) trivial)

instance : DecidablePred LegalAsk := fun q => by cases q <;> unfold LegalAsk <;> infer_instance

/-- A store with `T` in it. -/
def beforeCopy : List Op :=
  [.addCollection (lit "T"), .addTriples (lit "T") (BSet.ofList [⟨lit "a", lit "b", lit "x"⟩, ⟨lit "a", lit "b", lit "y"⟩])]

theorem beforeCopy_legal : ∀ op ∈ beforeCopy, Heed.LegalIn op := by
  intro op h
  simp only [beforeCopy, List.mem_cons, List.not_mem_nil, or_false] at h
  rcases h with rfl | rfl <;> simp only [Heed.LegalIn] <;> decide +kernel

example := C87_lmdb_again beforeCopy beforeCopy_legal copyTwice (by decide +kernel) (C87_from_the_text _ _ _ copyTwice_order).1

/-- It runs through, and there is something to lose: the environment along the way is not yet the last one. -/
example :
    let G := Graph.ops Heed.ops
    let s := (runOps Heed.ops Heed.new beforeCopy).2
    let once := runCalls G common copyTwice s
    once.1 = .ok (.network ((BSet.ofList [⟨lit "a", lit "b", lit "x"⟩, ⟨lit "a", lit "b", lit "y"⟩]).map Graph.tripToEntry)) ∧
    ∀ i < 5, Heed.records (afterAsks G i (callsP copyTwice) s) < Heed.records once.2 := by
  decide +kernel

example := C87_duck_again beforeCopy copyTwice (C87_from_the_text _ _ _ copyTwice_order).1 6
  ⟨.addCollection (.of (lit "U")), by decide +kernel, trivial⟩

/-! ## The order matters, and the stores differ -/

/-- `let A (read B), let B {x : y}`. -/
def readFirst : List Call :=
  [call "let" [.element (.of (lit "A")), .quote [.element (.of (lit "read")), .element (.of (lit "B"))]],
   call "let" [.element (.of (lit "B")), .network (BSet.ofList [.ext (.of (lit "x")) (.of (lit "y"))])]]

/-- C87: the condition is needed: a script that reads a collection it writes later can leave something else the second time, in the
in-memory store as in the LMDB-backed one, although both runs succeed. -/
theorem C87_order_matters :
    (let s := (runOps Mem.ops Mem.new [.addCollection (lit "B")]).2
     let once := runCalls Graph.memOps common readFirst s
     let twice := runCalls Graph.memOps common readFirst once.2
     once.1 = .ok emptyNet ∧ twice.1 = .ok emptyNet ∧
     Mem.ops.triples once.2 (lit "A") = .ok ∅ ∧ Mem.ops.triples twice.2 (lit "A") ≠ .ok ∅) ∧
    (let s := (runOps Heed.ops Heed.new [.addCollection (lit "B")]).2
     let once := runCalls (Graph.ops Heed.ops) common readFirst s
     let twice := runCalls (Graph.ops Heed.ops) common readFirst once.2
     once.1 = .ok emptyNet ∧ twice.1 = .ok emptyNet ∧
     Heed.ops.triples once.2 (lit "A") = .ok ∅ ∧ Heed.ops.triples twice.2 (lit "A") ≠ .ok ∅) := by
  decide +kernel

/-- `let A {x : x}, assert-equal (read A) {x : x}, let A {y : y}`. -/
def writeReadWrite : List Call :=
  [call "let" [.element (.of (lit "A")), .network (BSet.ofList [.ext (.of (lit "x")) (.of (lit "x"))])],
   call "assert-equal" [.quote [.element (.of (lit "read")), .element (.of (lit "A"))], .network (BSet.ofList [.ext (.of (lit "x")) (.of (lit "x"))])],
   call "let" [.element (.of (lit "A")), .network (BSet.ofList [.ext (.of (lit "y")) (.of (lit "y"))])]]

/-- C87: a script that writes, reads and writes a collection again can be run again on the in-memory store (where `let` replaces, so the
first `let` undoes the last one) and not on the LMDB-backed one (where it adds): there the second run stops at the assertion. -/
theorem C87_stores_differ :
    NoReadBeforeWrite (asksOf Graph.memOps (callsP writeReadWrite) Mem.new) ∧
    (let once := runCalls Graph.memOps common writeReadWrite Mem.new
     once.1 = .ok emptyNet ∧ runCalls Graph.memOps common writeReadWrite once.2 = once) ∧
    (let once := runCalls (Graph.ops Heed.ops) common writeReadWrite Heed.new
     once.1 = .ok emptyNet ∧ ∃ m, (runCalls (Graph.ops Heed.ops) common writeReadWrite once.2).1 = .err m) := by
  refine ⟨?_, ⟨by decide +kernel, by decide +kernel⟩, by decide +kernel, ?_⟩
  · have hn : ∀ q ∈ asksOf Graph.memOps (callsP writeReadWrite) Mem.new, askName q = lit "A" := by decide +kernel
    have hh : (asksOf Graph.memOps (callsP writeReadWrite) Mem.new).head? = some (.addCollection (.of (lit "A"))) := by decide +kernel
    revert hn hh
    generalize asksOf Graph.memOps (callsP writeReadWrite) Mem.new = tr
    rintro hn hh a q b q' rfl _ hq _ _
    cases a with
    | nil => simp only [List.nil_append, List.head?_cons, Option.some.injEq] at hh; subst hh; exact absurd hq fun h => h
    | cons x a =>
      simp only [List.cons_append, List.head?_cons, Option.some.injEq] at hh
      subst hh
      exact ⟨_, List.mem_cons_self, trivial, by rw [hn q (by simp)]; rfl⟩
  · have : (runCalls (Graph.ops Heed.ops) common writeReadWrite (runCalls (Graph.ops Heed.ops) common writeReadWrite Heed.new).2).1 ≠ .panic ∧
        ∀ v, (runCalls (Graph.ops Heed.ops) common writeReadWrite (runCalls (Graph.ops Heed.ops) common writeReadWrite Heed.new).2).1 ≠ .ok v := by
      generalize hr : runCalls (Graph.ops Heed.ops) common writeReadWrite (runCalls (Graph.ops Heed.ops) common writeReadWrite Heed.new).2 = r
      have h : (match (runCalls (Graph.ops Heed.ops) common writeReadWrite (runCalls (Graph.ops Heed.ops) common writeReadWrite Heed.new).2).1 with
        | .err _ => true | _ => false) = true := by decide +kernel
      rw [hr] at h
      revert h
      cases r.1 <;> simp
    revert this
    cases (runCalls (Graph.ops Heed.ops) common writeReadWrite (runCalls (Graph.ops Heed.ops) common writeReadWrite Heed.new).2).1 with
    | ok v => intro h; exact absurd rfl (h.2 v)
    | err m => intro _; exact ⟨m, rfl⟩
    | panic => intro h; exact absurd rfl h.1

end Props
end Verif
