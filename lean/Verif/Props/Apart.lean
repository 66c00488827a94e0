import Verif.Spec.Apart
import Verif.Props.Sayable
import Verif.Props.LocalityMore
/-!
# C100: what scripts can tell apart
-/
namespace Verif
namespace Props
open Spec Eval

namespace Apart

theorem afterScripts_append (L : LigOps σ) (a b : List Str) : ∀ s : σ, afterScripts L (a ++ b) s = afterScripts L b (afterScripts L a s) := by
  induction a with
  | nil => intro s; rfl
  | cons q a ih => intro s; exact ih _

section
variable {T : TripsOps τ} {I : τ → Prop} {b : Bool} {world : τ → World}

theorem agree_run (R : Refines T I b world (fun _ => True)) (Lc : LocalStore T I world) {s t : τ} (hs : I s) (ht : I t) (h : SameSayable T s t) (script : Str) :
    (run (Graph.ops T) common script s).1 = (run (Graph.ops T) common script t).1 ∧
    SameSayable T (run (Graph.ops T) common script s).2 (run (Graph.ops T) common script t).2 := by
  by_cases hm : ∃ calls, Means script calls
  · obtain ⟨calls, hm⟩ := hm
    have hc := (C92_scripts calls).mp ⟨script, hm⟩
    rw [run_means _ _ hm, run_means _ _ hm]
    obtain ⟨h1, h2⟩ := depends_of R Lc calls hs ht fun c hm n hn => h n (sayable_uses (hc c hm) hn).2.2
    refine ⟨h1, fun d hd => ?_⟩
    by_cases hu : ∃ c ∈ calls, ∃ n : Element, CallUses n c ∧ n.text = d.text
    · obtain ⟨c, hcm, n, hn, e⟩ := hu
      have := h2 c hcm n hn
      rw [e] at this
      refine ⟨this.1, ?_⟩
      have h3 := this.2
      have he : ∀ u : τ, (Graph.ops T).entries u n = (Graph.ops T).entries u d := by
        intro u
        show (T.triples u n.text).map _ = (T.triples u d.text).map _
        rw [e]
      rwa [he, he] at h3
    · have hf : ∀ c ∈ calls, ∀ name : Element, CallLets name c → name.text ≠ d.text :=
        fun c hcm name hl e => hu ⟨c, hcm, name, callUses_of_lets hl, e⟩
      obtain ⟨a1, a2⟩ := frame_of R hs calls d hf
      obtain ⟨b1, b2⟩ := frame_of R ht calls d hf
      obtain ⟨c1, c2⟩ := h d hd
      exact ⟨a2.trans (c1.trans b2.symm), a1.trans (c2.trans b1.symm)⟩
  · refine ⟨run_no_calls_same _ hm s t, ?_⟩
    rw [(run_no_calls _ hm s).1, (run_no_calls _ hm t).1]
    exact h

theorem inv_run (R : Refines T I b world (fun _ => True)) {s : τ} (hs : I s) (script : Str) : I (run (Graph.ops T) common script s).2 := by
  by_cases hm : ∃ calls, Means script calls
  · obtain ⟨calls, hm⟩ := hm
    rw [run_means _ _ hm]
    exact (calls_keep R.inv (fun _ => True) calls (fun _ _ _ _ _ => trivial) (fun _ _ _ _ _ _ => trivial) s hs trivial).1
  · rw [(run_no_calls _ hm s).1]; exact hs

theorem inv_after (R : Refines T I b world (fun _ => True)) : ∀ (scripts : List Str) {s : τ}, I s → I (afterScripts (Graph.ops T) scripts s)
  | [], _, hs => hs
  | q :: scripts, _, hs => inv_after R scripts (inv_run R hs q)

theorem agree_after (R : Refines T I b world (fun _ => True)) (Lc : LocalStore T I world) : ∀ (scripts : List Str) {s t : τ}, I s → I t → SameSayable T s t →
    SameSayable T (afterScripts (Graph.ops T) scripts s) (afterScripts (Graph.ops T) scripts t)
  | [], _, _, _, _, h => h
  | q :: scripts, _, _, hs, ht, h => agree_after R Lc scripts (inv_run R hs q) (inv_run R ht q) (agree_run R Lc hs ht h q).2

end

/-- A read tells entries apart. -/
theorem reads_alike {L : LigOps σ} {s t : σ} (h : Alike L s t) (c : Element) (hc : SayableElement c) : L.entries s c = L.entries t c := by
  obtain ⟨script, hm⟩ := (C92_scripts [call "read" [.element c]]).mpr (by
    intro x hx
    rw [List.mem_singleton] at hx
    subst hx
    refine ⟨sayable_of (plain_stringBody (by unfold Special; decide)), fun v hv => ?_⟩
    simp only [call, List.mem_singleton] at hv
    subst hv
    exact hc)
  have h := h script
  rw [run_means _ _ hm, run_means _ _ hm] at h
  have e : ∀ u : σ, (runCalls L common [call "read" [.element c]] u).1 =
      match L.entries u c with | .ok n => .ok (.network n) | .err m => .err (lit "Error " ++ m) | .panic => .panic := by
    intro u
    rw [common_read]
    simp only [Eval.read]
    cases L.entries u c <;> rfl
  rw [e, e] at h
  cases hs : L.entries s c <;> cases ht : L.entries t c <;> rw [hs, ht] at h <;> simp_all

theorem sayable_alike {T : TripsOps τ} {s t : τ} (h : Alike (Graph.ops T) s t) (c : Element) (hc : StringBody c.text) :
    (Graph.ops T).entries s c = (Graph.ops T).entries t c :=
  reads_alike h (.of c.text) (sayable_of hc)

theorem mem_agree {s t : Mem} (h : ∀ c : Element, StringBody c.text → Graph.memOps.entries s c = Graph.memOps.entries t c) : SameSayable Mem.ops s t := by
  intro c hc
  have h := h c hc
  refine ⟨?_, h⟩
  rw [mem_listed, mem_listed]
  simp only [Graph.memOps, Graph.ops, Graph.entries, Mem.ops, Mem.triples] at h
  cases h1 : s.colls.get? c.text <;> cases h2 : t.colls.get? c.text <;> rw [h1, h2] at h <;> simp [Res.map] at h ⊢

/-- On the DuckDB store a `let` tells whether a collection is there. -/
theorem duck_let {s : Duck} (hs : Duck.Inv s) (c : Element) :
    (runCalls (Graph.ops Duck.ops) common [call "let" [.element c, .network ∅]] s).1 = .panic ↔ Listed Duck.ops s c.text := by
  have hl : Listed Duck.ops s c.text ↔ (Duck.world s c.text).isSome := (duck_refines.agrees _ hs).listed c.text
  rw [hl]
  obtain ⟨h1, h2, h3⟩ := Duck.exec_spec hs (.addCollection c.text)
  have e : (runCalls (Graph.ops Duck.ops) common [call "let" [.element c, .network ∅]] s).1 =
      match letStore (Graph.ops Duck.ops) c ∅ s with
      | (.ok res, _) => .ok res | (.err m, _) => .err m | (.panic, _) => .panic := by
    rw [common_let]
    cases letStore (Graph.ops Duck.ops) c ∅ s with | mk r u => cases r <;> rfl
  rw [e]
  have ha : (Graph.ops Duck.ops).addCollection s c =
      ((exec Duck.ops s (.addCollection c.text)).1.errTodo, (exec Duck.ops s (.addCollection c.text)).2) := rfl
  cases hw : (Duck.world s c.text).isSome with
  | true =>
    simp only [hw, if_true] at h3
    simp [letStore, ha, h3, Res.errTodo]
  | false =>
    simp only [hw, Bool.false_eq_true, if_false] at h3
    obtain ⟨-, -, k3⟩ := Duck.exec_spec h1 (.addTriples c.text ((∅ : Network).map Graph.entryToTrip))
    have hw' : (Duck.world (exec Duck.ops s (.addCollection c.text)).2 c.text).isSome = true := by
      rw [h2, h3]
      cases hn : Duck.world s c.text with
      | some p => rw [hn] at hw; cases hw
      | none => simp [applyEvent, apply, hn, World.set]
    simp only [hw', if_true] at k3
    have hb : ((Graph.ops Duck.ops).addEntries (exec Duck.ops s (.addCollection c.text)).2 c ∅).1 =
        (exec Duck.ops (exec Duck.ops s (.addCollection c.text)).2 (.addTriples c.text ((∅ : Network).map Graph.entryToTrip))).1.errTodo := rfl
    rw [k3] at hb
    generalize hx : (Graph.ops Duck.ops).addEntries (exec Duck.ops s (.addCollection c.text)).2 c ∅ = x at hb
    obtain ⟨r, s2, n⟩ := x
    simp only [letStore, ha, h3, Res.errTodo]
    rw [hx]
    simp only [Res.errTodo] at hb
    subst hb
    simp

theorem duck_agree {s t : Duck} (hs : Duck.Inv s) (ht : Duck.Inv t) (h : Alike (Graph.ops Duck.ops) s t) : SameSayable Duck.ops s t := by
  intro c hc
  refine ⟨?_, sayable_alike h c hc⟩
  obtain ⟨script, hm⟩ := (C92_scripts [call "let" [.element (.of c.text), .network ∅]]).mpr (by
    intro x hx
    rw [List.mem_singleton] at hx
    subst hx
    refine ⟨sayable_of (plain_stringBody (by unfold Special; decide)), fun v hv => ?_⟩
    simp only [call, List.mem_cons, List.not_mem_nil, or_false] at hv
    rcases hv with rfl | rfl
    · exact sayable_of hc
    · intro e he; exact absurd he (BSet.not_mem_empty e))
  have h := h script
  rw [run_means _ _ hm, run_means _ _ hm] at h
  rw [← duck_let hs (.of c.text), ← duck_let ht (.of c.text), h]

end Apart
open Apart

/-- C100, any store (the LMDB store too): stores that no script tells apart answer a request for the entries of a sayable name alike. -/
theorem C100_reads (L : LigOps σ) (s t : σ) (h : Alike L s t) (c : Element) (hc : SayableElement c) : L.entries s c = L.entries t c :=
  reads_alike h c hc

/-- C100, in-memory store: two stores (any two states) are answered alike by every script exactly if every collection with a sayable name is missing
in both or has the same entries in both. -/
theorem C100_stores_mem (s t : Mem) : Alike Graph.memOps s t ↔ SameSayable Mem.ops s t :=
  ⟨fun h => mem_agree fun c hc => sayable_alike h c hc, fun h script => C92_unseen s t (fun c hc => (h c hc).2) script⟩

/-- C100, DuckDB store: the same of any two reachable states. -/
theorem C100_stores_duck (l l' : List Op) :
    Alike (Graph.ops Duck.ops) (runOps Duck.ops Duck.new l).2 (runOps Duck.ops Duck.new l').2 ↔
      SameSayable Duck.ops (runOps Duck.ops Duck.new l).2 (runOps Duck.ops Duck.new l').2 :=
  ⟨fun h => duck_agree (duck_inv l) (duck_inv l') h, fun h script => C92_unseen_duck l l' script h⟩

/-- C100: stores that no script can tell apart remain so whatever scripts run on both. -/
theorem C100_remain (scripts : List Str) :
    (∀ s t : Mem, Alike Graph.memOps s t → Alike Graph.memOps (afterScripts Graph.memOps scripts s) (afterScripts Graph.memOps scripts t)) ∧
    (∀ l l' : List Op,
      let s := (runOps Duck.ops Duck.new l).2
      let t := (runOps Duck.ops Duck.new l').2
      Alike (Graph.ops Duck.ops) s t →
        Alike (Graph.ops Duck.ops) (afterScripts (Graph.ops Duck.ops) scripts s) (afterScripts (Graph.ops Duck.ops) scripts t)) := by
  refine ⟨fun s t h script => ?_, ?_⟩
  · exact (agree_run mem_refines mem_local trivial trivial
      (agree_after mem_refines mem_local scripts trivial trivial ((C100_stores_mem s t).mp h)) script).1
  · intro l l' s t h script
    exact (agree_run duck_refines duck_local (inv_after duck_refines scripts (duck_inv l)) (inv_after duck_refines scripts (duck_inv l'))
      (agree_after duck_refines duck_local scripts (duck_inv l) (duck_inv l') (duck_agree (duck_inv l) (duck_inv l') h)) script).1

/-- C100, in-memory store: two scripts that no session can tell apart are those that do the same to every store that scripts can make: same answer, same
store afterwards. -/
theorem C100_scripts_mem (a b : Str) :
    Interchangeable Graph.memOps Mem.new a b ↔
      ∀ s, SayableStore Mem.ops s → run Graph.memOps common a s = run Graph.memOps common b s := by
  constructor
  · rintro ⟨h1, h2⟩ s hs
    obtain ⟨before, rfl⟩ := (C92_stores s).1.mpr hs
    have key : (run Graph.memOps common a (afterScripts Graph.memOps before Mem.new)).2 =
        (run Graph.memOps common b (afterScripts Graph.memOps before Mem.new)).2 := by
      have hal : Alike Graph.memOps (run Graph.memOps common a (afterScripts Graph.memOps before Mem.new)).2
          (run Graph.memOps common b (afterScripts Graph.memOps before Mem.new)).2 := by
        intro last
        have := h2 before [] last
        rw [afterScripts_append, afterScripts_append] at this
        exact this
      have hr := (C100_stores_mem _ _).mp hal
      have say : ∀ q, SayableStore Mem.ops (run Graph.memOps common q (afterScripts Graph.memOps before Mem.new)).2 := by
        intro q
        have := (C92_only_sayable (before ++ [q])).1.1
        rw [afterScripts_append] at this
        exact this
      have sa := say a
      have sb := say b
      generalize (run Graph.memOps common a (afterScripts Graph.memOps before Mem.new)).2 = u at *
      generalize (run Graph.memOps common b (afterScripts Graph.memOps before Mem.new)).2 = v at *
      have hc : u.colls = v.colls := by
        apply BMap.ext_get
        intro c
        by_cases hb : StringBody c
        · have h := (hr (.of c) hb).2
          simp only [Graph.ops, Graph.entries, Mem.ops, Mem.triples, Element.of] at h
          cases h1 : u.colls.get? c <;> cases h2 : v.colls.get? c <;> rw [h1, h2] at h <;> simp only [Res.map, Res.ok.injEq, reduceCtorEq] at h ⊢
          rename_i x y
          refine congrArg some (BSet.ext fun t => ?_)
          have : Graph.tripToEntry t ∈ x.map Graph.tripToEntry ↔ Graph.tripToEntry t ∈ y.map Graph.tripToEntry := by rw [h]
          simp only [BSet.mem_map] at this
          have inj : ∀ p q : Trip, Graph.tripToEntry p = Graph.tripToEntry q → p = q := by
            intro p q e
            have := congrArg Graph.entryToTrip e
            rwa [Graph.entryToTrip_tripToEntry, Graph.entryToTrip_tripToEntry] at this
          constructor
          · intro ht
            obtain ⟨p, hp, e⟩ := this.mp ⟨t, ht, rfl⟩
            rw [← inj _ _ e]; exact hp
          · intro ht
            obtain ⟨p, hp, e⟩ := this.mpr ⟨t, ht, rfl⟩
            rw [← inj _ _ e]; exact hp
        · have none : ∀ {w : Mem}, SayableStore Mem.ops w → w.colls.get? c = none := by
            intro w hw
            cases e : w.colls.get? c with
            | none => rfl
            | some p => exact absurd (hw.1 c ((mem_listed w c).mpr (by rw [e]; rfl))) hb
          rw [none sa, none sb]
      show (⟨u.colls⟩ : Mem) = ⟨v.colls⟩
      rw [hc]
    exact Prod.ext (h1 before) key
  · intro h
    have hs : ∀ before, SayableStore Mem.ops (afterScripts Graph.memOps before Mem.new) := fun before => (C92_only_sayable before).1.1
    refine ⟨fun before => by rw [h _ (hs before)], fun before after last => ?_⟩
    rw [afterScripts_append, afterScripts_append]
    simp only [afterScripts]
    rw [h _ (hs before)]

/-- C100, DuckDB store: two scripts are interchangeable exactly if after any scripts on a new store they are answered alike and leave
stores that list the same names and hold the same entries. -/
theorem C100_scripts_duck (a b : Str) :
    Interchangeable (Graph.ops Duck.ops) Duck.new a b ↔
      ∀ before, let s := afterScripts (Graph.ops Duck.ops) before Duck.new
        let r := run (Graph.ops Duck.ops) common a s
        let r' := run (Graph.ops Duck.ops) common b s
        r.1 = r'.1 ∧ SameView Duck.ops r.2 Duck.ops r'.2 := by
  have hi : ∀ before, Duck.Inv (afterScripts (Graph.ops Duck.ops) before Duck.new) := fun before => inv_after duck_refines before (duck_inv [])
  have say : ∀ q before, SayableStore Duck.ops (run (Graph.ops Duck.ops) common q (afterScripts (Graph.ops Duck.ops) before Duck.new)).2 := by
    intro q before
    have := (C92_only_sayable (before ++ [q])).2.2.1
    rw [afterScripts_append] at this
    exact this
  have trip : ∀ {x y : Res (BSet Trip)}, x.map (·.map Graph.tripToEntry) = y.map (·.map Graph.tripToEntry) → ∀ p, x = .ok p → y = .ok p := by
    intro x y h p e
    subst e
    cases y with
    | err m => cases h
    | panic => cases h
    | ok q =>
      simp only [Res.map, Res.ok.injEq] at h
      refine congrArg Res.ok (BSet.ext fun t => ?_)
      have : Graph.tripToEntry t ∈ p.map Graph.tripToEntry ↔ Graph.tripToEntry t ∈ q.map Graph.tripToEntry := by rw [h]
      simp only [BSet.mem_map] at this
      have inj : ∀ p q : Trip, Graph.tripToEntry p = Graph.tripToEntry q → p = q := by
        intro p q e
        have := congrArg Graph.entryToTrip e
        rwa [Graph.entryToTrip_tripToEntry, Graph.entryToTrip_tripToEntry] at this
      constructor
      · intro ht
        obtain ⟨p, hp, e⟩ := this.mpr ⟨t, ht, rfl⟩
        rw [← inj _ _ e]; exact hp
      · intro ht
        obtain ⟨p, hp, e⟩ := this.mp ⟨t, ht, rfl⟩
        rw [← inj _ _ e]; exact hp
  constructor
  · rintro ⟨h1, h2⟩ before
    refine ⟨h1 before, ?_⟩
    have hal : Alike (Graph.ops Duck.ops) (run (Graph.ops Duck.ops) common a (afterScripts (Graph.ops Duck.ops) before Duck.new)).2
        (run (Graph.ops Duck.ops) common b (afterScripts (Graph.ops Duck.ops) before Duck.new)).2 := by
      intro last
      have := h2 before [] last
      rw [afterScripts_append, afterScripts_append] at this
      exact this
    have ha := duck_agree (inv_run duck_refines (hi before) a) (inv_run duck_refines (hi before) b) hal
    have sa := say a before
    have sb := say b before
    have ia := inv_run duck_refines (hi before) a
    refine ⟨fun c => ⟨fun h => (ha (.of c) (sa.1 c h)).1.mp h, fun h => (ha (.of c) (sb.1 c h)).1.mpr h⟩, fun c h => ?_⟩
    obtain ⟨p, hp⟩ := Option.isSome_iff_exists.mp (((duck_refines.agrees _ ia).listed c).mp h)
    obtain ⟨ts, e, _⟩ := (duck_refines.agrees _ ia).2 c p hp
    exact ⟨ts, e, trip (ha (.of c) (sa.1 c h)).2 ts e⟩
  · intro h
    refine ⟨fun before => (h before).1, fun before after last => ?_⟩
    rw [afterScripts_append, afterScripts_append]
    simp only [afterScripts]
    obtain ⟨_, hl, hv⟩ := h before
    have ia := inv_run duck_refines (hi before) a
    have ib := inv_run duck_refines (hi before) b
    have hag : SameSayable Duck.ops (run (Graph.ops Duck.ops) common a (afterScripts (Graph.ops Duck.ops) before Duck.new)).2
        (run (Graph.ops Duck.ops) common b (afterScripts (Graph.ops Duck.ops) before Duck.new)).2 := by
      intro c _
      refine ⟨hl c.text, ?_⟩
      show (Duck.ops.triples _ c.text).map _ = (Duck.ops.triples _ c.text).map _
      by_cases hc : Listed Duck.ops (run (Graph.ops Duck.ops) common a (afterScripts (Graph.ops Duck.ops) before Duck.new)).2 c.text
      · obtain ⟨ts, e1, e2⟩ := hv c.text hc
        rw [e1, e2]
      · have none : ∀ {u : Duck}, Duck.Inv u → ¬ Listed Duck.ops u c.text → Duck.ops.triples u c.text = .ok ∅ := by
          intro u hu hn
          obtain ⟨us, e1, e2⟩ := Duck.triples_spec hu c.text
          have : us = ∅ := by
            ext t
            rw [e2]
            constructor
            · rintro ⟨p, hp, _⟩
              exact absurd (((duck_refines.agrees _ hu).listed c.text).mpr (by rw [hp]; rfl)) hn
            · intro ht; exact absurd ht (BSet.not_mem_empty t)
          rw [← this]; exact e1
        rw [none ia hc, none ib fun h => hc ((hl c.text).mpr h)]
    exact (agree_run duck_refines duck_local (inv_after duck_refines after ia) (inv_after duck_refines after ib)
      (agree_after duck_refines duck_local after ia ib hag) last).1

/-! ## Cases -/

/-- No script tells the two stores of `saidOps` and `unsaidOps` apart, though they differ. -/
example : (runOps Mem.ops Mem.new saidOps).2 ≠ (runOps Mem.ops Mem.new unsaidOps).2 ∧
    Alike Graph.memOps (runOps Mem.ops Mem.new saidOps).2 (runOps Mem.ops Mem.new unsaidOps).2 ∧
    Alike (Graph.ops Duck.ops) (runOps Duck.ops Duck.new saidOps).2 (runOps Duck.ops Duck.new unsaidOps).2 := by
  refine ⟨by decide +kernel, C92_unseen _ _ fun c hc => ?_, fun script => C92_unseen_duck saidOps unsaidOps script fun c hc => ?_⟩
  · have hne : c.text ≠ lit "a\nb" := fun e => unsayable_newline (e ▸ hc)
    have hs : (runOps Mem.ops Mem.new unsaidOps).2 =
        ⟨(runOps Mem.ops Mem.new saidOps).2.colls.insert (lit "a\nb") (BSet.ofList [⟨lit "x", lit "r", lit "y"⟩])⟩ := by
      decide +kernel
    rw [hs]
    simp only [Graph.memOps, Graph.ops, Graph.entries, Mem.ops, Mem.triples, BMap.get?_insert_ne _ _ hne]
  · have hne : c.text ≠ lit "a\nb" := fun e => unsayable_newline (e ▸ hc)
    have h1 := C33_duck saidOps (.addCollection (lit "a\nb")) c.text hne
    have h2 := C33_duck (saidOps ++ [.addCollection (lit "a\nb")])
      (.addTriples (lit "a\nb") (BSet.ofList [⟨lit "x", lit "r", lit "y"⟩])) c.text hne
    exact ⟨(h2.2.trans h1.2).symm, congrArg (Res.map _) (h2.1.trans h1.1).symm⟩

theorem sayable_T : StringBody (lit "T") := plain_stringBody (by unfold Special; decide)

/-- A script tells a store with an empty collection from a store without it: on the in-memory store by reading, on the DuckDB store, where the
entries read are the same, by a `let`. -/
example : ¬ Alike Graph.memOps Mem.new (runOps Mem.ops Mem.new [.addCollection (lit "T")]).2 ∧
    ¬ Alike (Graph.ops Duck.ops) Duck.new (runOps Duck.ops Duck.new [.addCollection (lit "T")]).2 ∧
    (Graph.ops Duck.ops).entries Duck.new (el "T") = (Graph.ops Duck.ops).entries (runOps Duck.ops Duck.new [.addCollection (lit "T")]).2 (el "T") := by
  refine ⟨fun h => ?_, fun h => ?_, by decide +kernel⟩
  · have := ((C100_stores_mem _ _).mp h (el "T") sayable_T).2
    revert this
    decide +kernel
  · have := ((C100_stores_duck [] [.addCollection (lit "T")]).mp h (el "T") sayable_T).1
    have : Listed Duck.ops Duck.new (lit "T") := this.mpr ⟨[lit "T"], by decide +kernel, by decide +kernel⟩
    obtain ⟨l, h1, h2⟩ := this
    have h1 : Res.ok [] = Res.ok l := h1
    cases h1
    cases h2

/-- On the in-memory store a `let` replaces what an earlier one stored, so no session tells whether the earlier one was there. -/
example : Interchangeable Graph.memOps Mem.new (lit "let T {a r b}, let T {x r y}") (lit "let T {x r y}") := by
  have h1 : Means (lit "let T {a r b}, let T {x r y}")
      [call "let" [.element (el "T"), .network (BSet.ofList [.role (el "a") (el "b") (el "r")])],
       call "let" [.element (el "T"), .network (BSet.ofList [.role (el "x") (el "y") (el "r")])]] :=
    ⟨_, rfl, Parser.parse_ok_iff.mp (by decide +kernel)⟩
  have h2 : Means (lit "let T {x r y}") [call "let" [.element (el "T"), .network (BSet.ofList [.role (el "x") (el "y") (el "r")])]] :=
    ⟨_, rfl, Parser.parse_ok_iff.mp (by decide +kernel)⟩
  refine (C100_scripts_mem _ _).mpr fun s _ => ?_
  rw [run_means _ _ h1, run_means _ _ h2, ← List.singleton_append, runCalls_append]
  simp only [common_let, memLet, List.cons_ne_nil, if_false]
  congr 2
  exact BMap.ext_get fun k => by
    by_cases e : k = (el "T").text
    · subst e; simp
    · rw [BMap.get?_insert_ne _ _ e, BMap.get?_insert_ne _ _ e, BMap.get?_insert_ne _ _ e]

/-- On the DuckDB store they are told apart: the second `let` panics. -/
example : ¬ Interchangeable (Graph.ops Duck.ops) Duck.new (lit "let T {a r b}, let T {x r y}") (lit "let T {x r y}") := by
  intro h
  have := h.1 []
  revert this
  decide +kernel

/-- Scripts with the same answer everywhere can be told apart later: `let T {a r b}` and `ignore`. -/
example : (∀ before, (run Graph.memOps common (lit "let T {a r b}") (afterScripts Graph.memOps before Mem.new)).1 =
      (run Graph.memOps common (lit "ignore {a r b}") (afterScripts Graph.memOps before Mem.new)).1) ∧
    ¬ Interchangeable Graph.memOps Mem.new (lit "let T {a r b}") (lit "ignore {a r b}") := by
  constructor
  · intro before
    have h1 : Means (lit "let T {a r b}") [call "let" [.element (el "T"), .network (BSet.ofList [.role (el "a") (el "b") (el "r")])]] :=
      ⟨_, rfl, Parser.parse_ok_iff.mp (by decide +kernel)⟩
    have h2 : Means (lit "ignore {a r b}") [call "ignore" [.network (BSet.ofList [.role (el "a") (el "b") (el "r")])]] :=
      ⟨_, rfl, Parser.parse_ok_iff.mp (by decide +kernel)⟩
    rw [run_means _ _ h1, run_means _ _ h2, common_let, memLet]
    rfl
  · intro h
    have := h.2 [] [] (lit "read T")
    revert this
    decide +kernel

/-- `union` of two networks and `id` of the one network with both entries: interchangeable on the DuckDB store. -/
example : Interchangeable (Graph.ops Duck.ops) Duck.new (lit "union {a r b} {x r y}") (lit "id {a r b, x r y}") := by
  have h1 : Means (lit "union {a r b} {x r y}")
      [call "union" [.network (BSet.ofList [.role (el "a") (el "b") (el "r")]), .network (BSet.ofList [.role (el "x") (el "y") (el "r")])]] :=
    ⟨_, rfl, Parser.parse_ok_iff.mp (by decide +kernel)⟩
  have h2 : Means (lit "id {a r b, x r y}")
      [call "id" [.network (BSet.ofList [.role (el "a") (el "b") (el "r"), .role (el "x") (el "y") (el "r")])]] :=
    ⟨_, rfl, Parser.parse_ok_iff.mp (by decide +kernel)⟩
  refine (C100_scripts_duck _ _).mpr fun before => ?_
  have e : ∀ s : Duck, run (Graph.ops Duck.ops) common (lit "union {a r b} {x r y}") s = run (Graph.ops Duck.ops) common (lit "id {a r b, x r y}") s := by
    intro s
    rw [run_means _ _ h1, run_means _ _ h2]
    rfl
  simp only [e, true_and]
  have hi := inv_run duck_refines (inv_after duck_refines before (duck_inv [])) (lit "id {a r b, x r y}")
  refine ⟨fun _ => Iff.rfl, fun c hc => ?_⟩
  obtain ⟨p, hp⟩ := Option.isSome_iff_exists.mp (((duck_refines.agrees _ hi).listed c).mp hc)
  obtain ⟨ts, e, _⟩ := (duck_refines.agrees _ hi).2 c p hp
  exact ⟨ts, e, e⟩

end Props
end Verif
