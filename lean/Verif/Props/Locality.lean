import Verif.Proofs.EvalLocal
import Verif.Props.Effects
/-!
# C62: scripts depend only on the collections they name, and scripts over different collections commute
-/
namespace Verif
namespace Props
open Spec Eval

/-- The outcome of an operation, and of a query, depends only on what is stored under the name. -/
structure LocalStore (T : TripsOps τ) (I : τ → Prop) (world : τ → World) : Prop where
  addCollection : ∀ s t c, I s → I t → world s c = world t c → (exec T s (.addCollection c)).1 = (exec T t (.addCollection c)).1
  addTriples : ∀ s t c ts, I s → I t → world s c = world t c → (exec T s (.addTriples c ts)).1 = (exec T t (.addTriples c ts)).1
  filter : ∀ s t c q, I s → I t → world s c = world t c → T.filter s c q = T.filter t c q

theorem mem_get_of_world {s t : Mem} {c : Str} (h : Mem.world s c = Mem.world t c) : s.colls.get? c = t.colls.get? c := by
  simp only [Mem.world] at h
  cases h1 : s.colls.get? c with
  | none => rw [h1] at h; cases h2 : t.colls.get? c with
    | none => rfl
    | some b => rw [h2] at h; cases h
  | some a =>
    rw [h1] at h
    cases h2 : t.colls.get? c with
    | none => rw [h2] at h; cases h
    | some b =>
      rw [h2] at h
      simp only [Option.map_some, Option.some.injEq] at h
      congr 1
      exact BSet.ext fun x => by have := congrFun h x; simpa using this

theorem mem_local : LocalStore Mem.ops (fun _ => True) Mem.world where
  addCollection s t c _ _ _ := rfl
  addTriples s t c ts _ _ h := by
    simp only [exec, Mem.ops, Mem.addTriples, mem_get_of_world h]
    cases t.colls.get? c <;> rfl
  filter s t c q _ _ h := by
    simp only [Mem.ops, Mem.filter, mem_get_of_world h]

theorem duck_local : LocalStore Duck.ops Duck.Inv Duck.world where
  addCollection s t c hs ht h := by
    rw [(Duck.exec_spec hs (.addCollection c)).2.2, (Duck.exec_spec ht (.addCollection c)).2.2]; simp only [h]
  addTriples s t c ts hs ht h := by
    rw [(Duck.exec_spec hs (.addTriples c ts)).2.2, (Duck.exec_spec ht (.addTriples c ts)).2.2]; simp only [h]
  filter s t c q _ _ _ := rfl

/-- Both states satisfy the invariant and hold the same under every name in `N`. -/
def SameOn (I : τ → Prop) (world : τ → World) (N : Str → Prop) (s t : τ) : Prop :=
  I s ∧ I t ∧ ∀ c, N c → world s c = world t c

theorem applyEvent_at (b : Bool) (w w' : World) (e : Event) (c : Str) (h : w c = w' c) (ht : w e.1.target = w' e.1.target) :
    applyEvent b w e c = applyEvent b w' e c := by
  by_cases hc : c = e.1.target
  · obtain ⟨op, r⟩ := e
    cases r with
    | err m => exact h
    | panic => exact h
    | ok u =>
      subst hc
      cases op with
      | addCollection d =>
        simp only [applyEvent, apply, Op.target] at *
        rw [h]
        cases w' d with
        | none => simp
        | some p => cases b <;> simp [h]
      | removeCollection d => simp [applyEvent, apply, Op.target]
      | addTriples d ts =>
        simp only [applyEvent, apply, Op.target] at *
        rw [h]
        cases w' d with
        | none => simp [h]
        | some p => simp
      | removeTriples d ts =>
        simp only [applyEvent, apply, Op.target] at *
        rw [h]
        cases w' d with
        | none => simp [h]
        | some p => simp
  · rw [applyEvent_other b w e c hc, applyEvent_other b w' e c hc, h]

theorem relOn_of {T : TripsOps τ} {I : τ → Prop} {b : Bool} {world : τ → World} (R : Refines T I b world (fun _ => True))
    (Lc : LocalStore T I world) (N : Str → Prop) : RelOn N (SameOn I world N) (Graph.ops T) (Graph.ops T) where
  entries := by
    rintro s t c hc ⟨h1, h2, h3⟩
    show (T.triples s c.text).map _ = (T.triples t c.text).map _
    rw [R.read_congr h2 h1 (h3 _ hc)]
  filter := by
    rintro s t c p hc ⟨h1, h2, h3⟩
    show ((T.filter s c.text _).map _).errTodo = ((T.filter t c.text _).map _).errTodo
    rw [Lc.filter s t _ _ h1 h2 (h3 _ hc)]
  addCollection := by
    rintro s t c hc ⟨h1, h2, h3⟩
    have e := Lc.addCollection s t c.text h1 h2 (h3 _ hc)
    refine ⟨?_, ?_⟩
    · show (exec T s (.addCollection c.text)).1.errTodo = (exec T t (.addCollection c.text)).1.errTodo
      rw [e]
    · show SameOn I world N (exec T s (.addCollection c.text)).2 (exec T t (.addCollection c.text)).2
      refine ⟨R.inv _ _ h1, R.inv _ _ h2, fun d hd => ?_⟩
      rw [R.step _ _ h1 trivial, R.step _ _ h2 trivial, e]
      exact applyEvent_at b _ _ _ d (h3 d hd) (h3 _ hc)
  addEntries := by
    rintro s t c es hc ⟨h1, h2, h3⟩
    have e := Lc.addTriples s t c.text (es.map Graph.entryToTrip) h1 h2 (h3 _ hc)
    refine ⟨?_, ?_⟩
    · show (exec T s (.addTriples c.text _)).1.errTodo = (exec T t (.addTriples c.text _)).1.errTodo
      rw [e]
    · show SameOn I world N (exec T s (.addTriples c.text _)).2 (exec T t (.addTriples c.text _)).2
      refine ⟨R.inv _ _ h1, R.inv _ _ h2, fun d hd => ?_⟩
      rw [R.step _ _ h1 trivial, R.step _ _ h2 trivial, e]
      exact applyEvent_at b _ _ _ d (h3 d hd) (h3 _ hc)

/-- Equal listing and reading under a name: the same is stored under it. -/
theorem world_of_views {T : TripsOps τ} {I : τ → Prop} {b : Bool} {world : τ → World} {P : Op → Prop} (R : Refines T I b world P)
    {s t : τ} (hs : I s) (ht : I t) (c : Str) (hl : Listed T s c ↔ Listed T t c) (hr : T.triples s c = T.triples t c) :
    world s c = world t c := by
  rw [(R.agrees s hs).listed, (R.agrees t ht).listed] at hl
  cases h1 : world s c with
  | none =>
    cases h2 : world t c with
    | none => rfl
    | some q => rw [h1, h2] at hl; simp at hl
  | some p =>
    cases h2 : world t c with
    | none => rw [h1, h2] at hl; simp at hl
    | some q =>
      obtain ⟨A, a1, a2⟩ := (R.agrees s hs).2 c p h1
      obtain ⟨B, b1, b2⟩ := (R.agrees t ht).2 c q h2
      rw [a1, b1] at hr
      cases hr
      congr 1
      funext x
      exact propext ((a2 x).symm.trans (b2 x))

theorem local_of {T : TripsOps τ} {I : τ → Prop} {b : Bool} {world : τ → World} (R : Refines T I b world (fun _ => True))
    (Lc : LocalStore T I world) (calls : List Call) {s t : τ} (hs : I s) (ht : I t) {N : Str → Prop}
    (hN : ∀ c ∈ calls, ∀ n, CallUses n c → N n.text) (hw : ∀ c, N c → world s c = world t c) :
    OutRel (SameOn I world N) (runCalls (Graph.ops T) common calls s) (runCalls (Graph.ops T) common calls t) :=
  runCallsLoop_on (relOn_of R Lc N) calls hN emptyNet s t ⟨hs, ht, hw⟩

/-- Names used by the calls. -/
def UsedBy (calls : List Call) (x : Str) : Prop := ∃ c ∈ calls, ∃ n : Element, CallUses n c ∧ n.text = x

mutual
theorem uses_of_lets (n : Element) : ∀ v, LetsIn n v → UsesIn n v
  | .quote vs, h => by
    simp only [LetsIn, UsesIn] at *
    rcases h with ⟨e, rest, rfl, he⟩ | h
    · exact .inl ⟨e, _, rfl, by simp [he], rest, rfl⟩
    · exact .inr (usesList_of_lets n vs h)
  | .element _, h => by simp only [LetsIn] at h
  | .network _, h => by simp only [LetsIn] at h
theorem usesList_of_lets (n : Element) : ∀ vs, LetsInList n vs → UsesInList n vs
  | [], h => by simp only [LetsInList] at h
  | v :: vs, h => by
    simp only [LetsInList, UsesInList] at *
    rcases h with h | h
    · exact .inl (uses_of_lets n v h)
    · exact .inr (usesList_of_lets n vs h)
end

theorem callUses_of_lets {n : Element} {c : Call} (h : CallLets n c) : CallUses n c := by
  rcases h with ⟨h, rest, e⟩ | h
  · exact .inl ⟨by simp [h], rest, e⟩
  · exact .inr (usesList_of_lets n _ h)

theorem world_frame {T : TripsOps τ} {I : τ → Prop} {b : Bool} {world : τ → World} {P : Op → Prop} (R : Refines T I b world P)
    {t : τ} (hi : I t) (calls : List Call) (d : Str) (hd : ¬ UsedBy calls d) :
    I (runCalls (Graph.ops T) common calls t).2 ∧ world (runCalls (Graph.ops T) common calls t).2 d = world t d := by
  have hd' : ∀ name : Element, (∃ c ∈ calls, CallLets name c) → d ≠ name.text := fun name ⟨c, h, h'⟩ e =>
    hd ⟨c, h, name, callUses_of_lets h', e.symm⟩
  exact calls_keep R.inv (fun t' => world t' d = world t d) calls
    (fun n hn t' hi' hp => (R.other t' (.addCollection n.text) d hi' (hd' n hn)).trans hp)
    (fun n hn t' ts hi' hp => (R.other t' (.addTriples n.text ts) d hi' (hd' n hn)).trans hp) t hi rfl

theorem commute_of {T : TripsOps τ} {I : τ → Prop} {b : Bool} {world : τ → World} (R : Refines T I b world (fun _ => True))
    (Lc : LocalStore T I world) (A B : List Call) {s : τ} (hs : I s) (hd : ∀ x, UsedBy A x → ¬ UsedBy B x) :
    let rA := runCalls (Graph.ops T) common A s
    let rB := runCalls (Graph.ops T) common B s
    let rAB := runCalls (Graph.ops T) common B rA.2
    let rBA := runCalls (Graph.ops T) common A rB.2
    rAB.1 = rB.1 ∧ rBA.1 = rA.1 ∧ SameView T rAB.2 T rBA.2 := by
  intro rA rB rAB rBA
  have hIA := (calls_keep R.inv (fun _ => True) A (fun _ _ _ _ _ => trivial) (fun _ _ _ _ _ _ => trivial) s hs trivial).1
  have hIB := (calls_keep R.inv (fun _ => True) B (fun _ _ _ _ _ => trivial) (fun _ _ _ _ _ _ => trivial) s hs trivial).1
  have hIAB := (calls_keep R.inv (fun _ => True) B (fun _ _ _ _ _ => trivial) (fun _ _ _ _ _ _ => trivial) rA.2 hIA trivial).1
  have hIBA := (calls_keep R.inv (fun _ => True) A (fun _ _ _ _ _ => trivial) (fun _ _ _ _ _ _ => trivial) rB.2 hIB trivial).1
  have lB := local_of R Lc B hIA hs (N := UsedBy B) (fun c hc n hn => ⟨c, hc, n, hn, rfl⟩)
    (fun c hc => (world_frame R hs A c (fun h => hd c h hc)).2)
  have lA := local_of R Lc A hIB hs (N := UsedBy A) (fun c hc n hn => ⟨c, hc, n, hn, rfl⟩)
    (fun c hc => (world_frame R hs B c (fun h => hd c hc h)).2)
  refine ⟨lB.1, lA.1, ?_⟩
  have hw : world rAB.2 = world rBA.2 := by
    funext c
    by_cases hB : UsedBy B c
    · have e1 : world rAB.2 c = world rB.2 c := lB.2.2.2 c hB
      have e2 : world rBA.2 c = world rB.2 c := (world_frame R hIB A c (fun h => hd c h hB)).2
      rw [e1, e2]
    · have e1 : world rAB.2 c = world rA.2 c := (world_frame R hIA B c hB).2
      by_cases hA : UsedBy A c
      · have e2 : world rBA.2 c = world rA.2 c := lA.2.2.2 c hA
        rw [e1, e2]
      · have e2 : world rBA.2 c = world rB.2 c := (world_frame R hIB A c hA).2
        have e3 : world rA.2 c = world s c := (world_frame R hs A c hA).2
        have e4 : world rB.2 c = world s c := (world_frame R hs B c hB).2
        rw [e1, e2, e3, e4]
  have a := R.agrees _ hIAB
  have b' := R.agrees _ hIBA
  rw [show world (runCalls (Graph.ops T) common B rA.2).2 = _ from hw] at a
  exact a.sameView b'

theorem depends_of {T : TripsOps τ} {I : τ → Prop} {b : Bool} {world : τ → World} (R : Refines T I b world (fun _ => True))
    (Lc : LocalStore T I world) (calls : List Call) {s t : τ} (hs : I s) (ht : I t)
    (hst : ∀ c ∈ calls, ∀ n : Element, CallUses n c → (Listed T s n.text ↔ Listed T t n.text) ∧
      (Graph.ops T).entries s n = (Graph.ops T).entries t n) :
    let r := runCalls (Graph.ops T) common calls s
    let r' := runCalls (Graph.ops T) common calls t
    r.1 = r'.1 ∧ ∀ c ∈ calls, ∀ n : Element, CallUses n c → (Listed T r.2 n.text ↔ Listed T r'.2 n.text) ∧
      (Graph.ops T).entries r.2 n = (Graph.ops T).entries r'.2 n := by
  intro r r'
  have htrip : ∀ {a b : Res (BSet Trip)}, a.map (·.map Graph.tripToEntry) = b.map (·.map Graph.tripToEntry) → a = b := by
    intro a b h
    cases a <;> cases b <;> simp only [Res.map, Res.ok.injEq, Res.err.injEq, reduceCtorEq] at h
    · rename_i A B
      congr 1
      apply BSet.ext; intro x
      have hx : Graph.tripToEntry x ∈ A.map Graph.tripToEntry ↔ Graph.tripToEntry x ∈ B.map Graph.tripToEntry := by rw [h]
      simp only [BSet.mem_map] at hx
      constructor
      · intro hA
        obtain ⟨y, hy, e⟩ := hx.mp ⟨x, hA, rfl⟩
        rw [← Graph.tripToEntry_inj e]; exact hy
      · intro hB
        obtain ⟨y, hy, e⟩ := hx.mpr ⟨x, hB, rfl⟩
        rw [← Graph.tripToEntry_inj e]; exact hy
    · rw [h]
    · rfl
  have hl := local_of R Lc calls hs ht (N := UsedBy calls) (fun c hc n hn => ⟨c, hc, n, hn, rfl⟩) (by
    rintro x ⟨c, hc, n, hn, rfl⟩
    obtain ⟨h1, h2⟩ := hst c hc n hn
    exact world_of_views R hs ht n.text h1 (htrip h2))
  refine ⟨hl.1, fun c hc n hn => ?_⟩
  obtain ⟨i1, i2, h3⟩ := hl.2
  have hw := h3 n.text ⟨c, hc, n, hn, rfl⟩
  refine ⟨?_, ?_⟩
  · rw [(R.agrees _ i1).listed, (R.agrees _ i2).listed, hw]
  · show (T.triples _ _).map _ = (T.triples _ _).map _
    rw [R.read_congr i2 i1 hw]

/-- C62, in-memory store: what calls return, and what they leave under the names they use, depends only on what is stored under the
names they write, read or filter. -/
theorem C62_depends_on_named (s t : Mem) (calls : List Call)
    (hst : ∀ c ∈ calls, ∀ n : Element, CallUses n c → Graph.memOps.entries s n = Graph.memOps.entries t n) :
    let r := runCalls Graph.memOps common calls s
    let r' := runCalls Graph.memOps common calls t
    r.1 = r'.1 ∧ ∀ c ∈ calls, ∀ n : Element, CallUses n c → Graph.memOps.entries r.2 n = Graph.memOps.entries r'.2 n := by
  have hl : ∀ (s t : Mem) (n : Element), Graph.memOps.entries s n = Graph.memOps.entries t n →
      (Listed Mem.ops s n.text ↔ Listed Mem.ops t n.text) := by
    intro s t n h
    rw [mem_listed, mem_listed]
    simp only [Graph.memOps, Graph.ops, Graph.entries, Mem.ops, Mem.triples] at h
    cases h1 : s.colls.get? n.text <;> cases h2 : t.colls.get? n.text <;> rw [h1, h2] at h <;> simp [Res.map] at h ⊢
  have := depends_of mem_refines mem_local calls (s := s) (t := t) trivial trivial
    (fun c hc n hn => ⟨hl s t n (hst c hc n hn), hst c hc n hn⟩)
  exact ⟨this.1, fun c hc n hn => (this.2 c hc n hn).2⟩

/-- C62, in-memory store: calls that name different collections do not interfere: each gives the same result before and after the
other, and both orders leave the same collections with the same triples. -/
theorem C62_commute_mem (s : Mem) (A B : List Call)
    (hd : ∀ a ∈ A, ∀ n : Element, CallUses n a → ∀ b ∈ B, ∀ m : Element, CallUses m b → n.text ≠ m.text) :
    let rA := runCalls Graph.memOps common A s
    let rB := runCalls Graph.memOps common B s
    let rAB := runCalls Graph.memOps common B rA.2
    let rBA := runCalls Graph.memOps common A rB.2
    rAB.1 = rB.1 ∧ rBA.1 = rA.1 ∧ SameView Mem.ops rAB.2 Mem.ops rBA.2 :=
  commute_of mem_refines mem_local A B trivial fun _ ⟨a, ha, n, hn, hx⟩ ⟨b, hb, m, hm, hx'⟩ =>
    hd a ha n hn b hb m hm (hx.trans hx'.symm)

/-- C62, DuckDB store, in every reachable state: likewise. -/
theorem C62_commute_duck (l : List Op) (A B : List Call)
    (hd : ∀ a ∈ A, ∀ n : Element, CallUses n a → ∀ b ∈ B, ∀ m : Element, CallUses m b → n.text ≠ m.text) :
    let s := (runOps Duck.ops Duck.new l).2
    let rA := runCalls (Graph.ops Duck.ops) common A s
    let rB := runCalls (Graph.ops Duck.ops) common B s
    let rAB := runCalls (Graph.ops Duck.ops) common B rA.2
    let rBA := runCalls (Graph.ops Duck.ops) common A rB.2
    rAB.1 = rB.1 ∧ rBA.1 = rA.1 ∧ SameView Duck.ops rAB.2 Duck.ops rBA.2 :=
  commute_of duck_refines duck_local A B (duck_inv l) fun _ ⟨a, ha, n, hn, hx⟩ ⟨b, hb, m, hm, hx'⟩ =>
    hd a ha n hn b hb m hm (hx.trans hx'.symm)

/-- Two lists of calls over different collections, one with its use hidden in a quote. -/
def useG : List Call := [call "let" [.element (.of (lit "G")), .network sampleNet], call "read" [.element (.of (lit "G"))]]
def useH : List Call := [call "assert-fail" [.quote [.element (.of (lit "read")), .element (.of (lit "H"))]]]

theorem useG_names : ∀ a ∈ useG, ∀ n : Element, CallUses n a → n.text = lit "G" := by
  intro a ha n hn
  simp only [useG, List.mem_cons, List.not_mem_nil, or_false] at ha
  rcases ha with rfl | rfl
  · rcases hn with ⟨_, rest, h⟩ | h
    · simp only [call, List.cons.injEq, Value.element.injEq] at h
      rw [← h.1]
    · simp only [call, UsesInList, UsesIn, or_false] at h
  · rcases hn with ⟨_, rest, h⟩ | h
    · simp only [call, List.cons.injEq, Value.element.injEq] at h
      rw [← h.1]
    · simp only [call, UsesInList, UsesIn, or_false] at h

theorem useH_names : ∀ b ∈ useH, ∀ m : Element, CallUses m b → m.text = lit "H" := by
  intro b hb m hm
  simp only [useH, List.mem_cons, List.not_mem_nil, or_false] at hb
  subst hb
  rcases hm with ⟨h, _⟩ | h
  · exact absurd h (by decide)
  · simp only [call, UsesInList, UsesIn, or_false] at h
    obtain ⟨e, args, h1, _, rest, h3⟩ := h
    simp only [List.cons.injEq, Value.element.injEq] at h1
    rw [← h1.2] at h3
    simp only [List.cons.injEq, Value.element.injEq] at h3
    rw [← h3.1]

example : (∀ a ∈ useG, ∀ n : Element, CallUses n a → ∀ b ∈ useH, ∀ m : Element, CallUses m b → n.text ≠ m.text) ∧
    CallUses (.of (lit "H")) (useH.headD (call "id" [])) := by
  refine ⟨fun a ha n hn b hb m hm => ?_, ?_⟩
  · rw [useG_names a ha n hn, useH_names b hb m hm]; decide
  · refine .inr ?_
    simp only [useH, List.headD_cons, call, UsesInList, UsesIn, or_false]
    exact ⟨_, _, rfl, by decide, _, rfl⟩

end Props
end Verif
