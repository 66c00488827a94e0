import Verif.Proofs.Steps
import Verif.Props.Locality
import Verif.Props.ScriptsCross
/-!
# C73: several scripts at the same time on one store
-/
namespace Verif
namespace Props
open Spec Eval Steps

/-- A store on which the outcome of an operation depends only on what is stored under its name, as long as identifiers do not run out
(`I k s`: good state with `k` identifiers left). -/
structure Isolates (T : TripsOps τ) (I : Nat → τ → Prop) (b : Bool) (world : τ → World) (legal : Str → Prop) : Prop where
  less : ∀ {j k s}, j ≤ k → I k s → I j s
  inv : ∀ k s op, I (op.cost + k) s → I k (exec T s op).2
  step : ∀ s op, I 0 s → legal op.target → world (exec T s op).2 = applyEvent b (world s) (op, (exec T s op).1)
  other : ∀ s op d, I 0 s → d ≠ op.target → world (exec T s op).2 d = world s d
  agrees : ∀ s, I 0 s → Agrees T s (world s)
  read : ∀ s t c, I 0 s → I 0 t → world s c = world t c → T.triples s c = T.triples t c
  filter : ∀ s t c q, I 0 s → I 0 t → world s c = world t c → T.filter s c q = T.filter t c q
  addCollection : ∀ s t c, I 1 s → I 1 t → world s c = world t c → (exec T s (.addCollection c)).1 = (exec T t (.addCollection c)).1
  addTriples : ∀ s t c ts, I (3 * ts.toList.length) s → I (3 * ts.toList.length) t → world s c = world t c →
    (exec T s (.addTriples c ts)).1 = (exec T t (.addTriples c ts)).1

theorem mem_isolates : Isolates Mem.ops (fun _ _ => True) true Mem.world (fun _ => True) where
  less _ _ := trivial
  inv _ _ _ _ := trivial
  step s op _ _ := mem_refines.step s op trivial trivial
  other s op d _ hd := mem_refines.other s op d trivial hd
  agrees s _ := mem_refines.agrees s trivial
  read _ _ _ _ _ h := mem_refines.read_congr trivial trivial h
  filter s t c q _ _ h := mem_local.filter s t c q trivial trivial h
  addCollection s t c _ _ h := mem_local.addCollection s t c trivial trivial h
  addTriples s t c ts _ _ h := mem_local.addTriples s t c ts trivial trivial h

theorem duck_isolates : Isolates Duck.ops (fun _ s => Duck.Inv s) false Duck.world (fun _ => True) where
  less _ h := h
  inv _ s op h := duck_refines.inv s op h
  step s op h _ := duck_refines.step s op h trivial
  other s op d h hd := duck_refines.other s op d h hd
  agrees s h := duck_refines.agrees s h
  read _ _ _ h h' e := duck_refines.read_congr h' h e
  filter s t c q h h' e := duck_local.filter s t c q h h' e
  addCollection s t c h h' e := duck_local.addCollection s t c h h' e
  addTriples s t c ts h h' e := duck_local.addTriples s t c ts h h' e

theorem heed_isolates : Isolates Heed.ops (fun k s => Heed.Good s ∧ Heed.Room s k) false Heed.worldOf (fun c => Heed.lmdbKey c = true) where
  less hj h := ⟨h.1, by have := h.2; unfold Heed.Room at *; omega⟩
  inv k s op h := ⟨heed_refines.inv s op h.1, Heed.room_exec h.1 op k h.2⟩
  step s op h hl := heed_refines.step s op h.1 (by cases op <;> simp only [Heed.LegalOp]; exact hl)
  other s op d h hd := heed_refines.other s op d h.1 hd
  agrees s h := heed_refines.agrees s h.1
  read _ _ _ h h' e := heed_refines.read_congr h'.1 h.1 e
  filter _ _ _ _ _ _ _ := rfl
  addCollection s t c h h' _ := by
    show (exec (Heed.opsWith true) s _).1 = (exec (Heed.opsWith true) t _).1
    rw [Heed.exec_eq, Heed.exec_eq]
    exact (Heed.outcome_addCollection h.1 true c h.2).trans (Heed.outcome_addCollection h'.1 true c h'.2).symm
  addTriples s t c ts h h' e := by
    show (exec (Heed.opsWith true) s _).1 = (exec (Heed.opsWith true) t _).1
    rw [Heed.exec_eq, Heed.exec_eq]
    refine (Heed.outcome_addTriples h.1 true c ts h.2).trans (Eq.trans ?_ (Heed.outcome_addTriples h'.1 true c ts h'.2).symm)
    rw [e]

section
variable {T : TripsOps τ} {I : Nat → τ → Prop} {b : Bool} {world : τ → World} {legal : Str → Prop}

/-- One operation in two states that look alike under the names in `N`. -/
theorem perform_same (S : Isolates T I b world legal) {N : Str → Prop} (hN : ∀ c, N c → legal c) (q : Ask) (hq : N (askName q)) {k : Nat} {s t : τ}
    (hs : I (askCost q + k) s) (ht : I (askCost q + k) t) (hw : ∀ c, N c → world s c = world t c) :
    (perform (Graph.ops T) s q).1 = (perform (Graph.ops T) t q).1 ∧ I k (perform (Graph.ops T) s q).2 ∧ I k (perform (Graph.ops T) t q).2 ∧
    ∀ c, N c → world (perform (Graph.ops T) s q).2 c = world (perform (Graph.ops T) t q).2 c := by
  have s0 := S.less (Nat.zero_le _) hs
  have t0 := S.less (Nat.zero_le _) ht
  cases q with
  | entries c =>
    simp only [askCost, Nat.zero_add] at hs ht
    refine ⟨?_, hs, ht, hw⟩
    show Answer.network ((T.triples s c.text).map _) = Answer.network ((T.triples t c.text).map _)
    rw [S.read s t c.text s0 t0 (hw _ hq)]
  | filter c p =>
    simp only [askCost, Nat.zero_add] at hs ht
    refine ⟨?_, hs, ht, hw⟩
    show Answer.network ((T.filter s c.text _).map _).errTodo = Answer.network ((T.filter t c.text _).map _).errTodo
    rw [S.filter s t c.text _ s0 t0 (hw _ hq)]
  | addCollection c =>
    have e := S.addCollection s t c.text (S.less (by simp [askCost]) hs) (S.less (by simp [askCost]) ht) (hw _ hq)
    have hst := S.step s (.addCollection c.text) s0 (hN _ hq)
    have htt := S.step t (.addCollection c.text) t0 (hN _ hq)
    refine ⟨?_, S.inv k s (.addCollection c.text) hs, S.inv k t (.addCollection c.text) ht, ?_⟩
    · show Answer.unit (exec T s (.addCollection c.text)).1.errTodo = Answer.unit (exec T t (.addCollection c.text)).1.errTodo
      rw [e]
    · intro d hd
      show world (exec T s (.addCollection c.text)).2 d = world (exec T t (.addCollection c.text)).2 d
      rw [hst, htt, e]
      exact applyEvent_at b _ _ _ d (hw d hd) (hw _ hq)
  | addEntries c es =>
    have hlen := length_map_le Graph.entryToTrip es
    simp only [askCost] at hs ht
    have e := S.addTriples s t c.text (es.map Graph.entryToTrip) (S.less (by omega) hs) (S.less (by omega) ht) (hw _ hq)
    have hst := S.step s (.addTriples c.text (es.map Graph.entryToTrip)) s0 (hN _ hq)
    have htt := S.step t (.addTriples c.text (es.map Graph.entryToTrip)) t0 (hN _ hq)
    refine ⟨?_, S.inv k s (.addTriples c.text (es.map Graph.entryToTrip)) (S.less ?_ hs),
      S.inv k t (.addTriples c.text (es.map Graph.entryToTrip)) (S.less ?_ ht), ?_⟩
    · show Answer.unit (exec T s (.addTriples c.text _)).1.errTodo = Answer.unit (exec T t (.addTriples c.text _)).1.errTodo
      rw [e]
    · simp only [Op.cost]; omega
    · simp only [Op.cost]; omega
    · intro d hd
      show world (exec T s (.addTriples c.text _)).2 d = world (exec T t (.addTriples c.text _)).2 d
      rw [hst, htt, e]
      exact applyEvent_at b _ _ _ d (hw d hd) (hw _ hq)

theorem perform_other (S : Isolates T I b world legal) (q : Ask) {s : τ} (hs : I 0 s) {d : Str} (hd : d ≠ askName q) :
    world (perform (Graph.ops T) s q).2 d = world s d := by
  cases q with
  | entries c => rfl
  | filter c p => rfl
  | addCollection c => exact S.other s (.addCollection c.text) d hs hd
  | addEntries c es => exact S.other s (.addTriples c.text (es.map Graph.entryToTrip)) d hs hd

/-- Programs whose names do not overlap, in any schedule: each is where it would be alone, and finds its collections as it would alone. -/
theorem interleaved_inv (S : Isolates T I b world legal) {N : Nat → Str → Prop} (hd : ∀ i j x, N i x → N j x → i = j)
    (hN : ∀ i x, N i x → legal x) {K : Nat} {s : τ} {ps : List Prog} (hI : I K s) (hp : ∀ i p, ps[i]? = some p → UsesOnly (N i) p)
    {tr : List (Nat × Ask)} {s' : τ} {ps' : List Prog} (h : Interleaved (Graph.ops T) s ps tr s' ps') : trCost tr ≤ K →
    I (K - trCost tr) s' ∧ ps'.length = ps.length ∧
    (∀ i p p', ps[i]? = some p → ps'[i]? = some p' → UsesOnly (N i) p' ∧
      ∃ t, p.run (Graph.ops T) s = p'.run (Graph.ops T) t ∧ I (K - trCost tr) t ∧ ∀ c, N i c → world s' c = world t c) ∧
    ∀ d, (∀ i, i < ps.length → ¬ N i d) → world s' d = world s d := by
  induction h with
  | start =>
    intro hc
    have : K - trCost [] = K := by simp [trCost]
    rw [this]
    refine ⟨hI, rfl, ?_, fun _ _ => rfl⟩
    intro i p p' h1 h2
    rw [h1] at h2; cases h2
    exact ⟨hp i p h1, s, rfl, hI, fun _ _ => rfl⟩
  | @step tr s1 ps1 j q k hrun hj ih =>
    intro hc
    have hsum : trCost (tr ++ [(j, q)]) = trCost tr + askCost q := by simp [trCost]
    rw [hsum] at hc ⊢
    obtain ⟨i1, hlen, i3, i4⟩ := ih (by omega)
    have hk : K - trCost tr = askCost q + (K - (trCost tr + askCost q)) := by omega
    rw [hk] at i1 i3
    have hjl : j < ps.length := by
      rw [← hlen]
      exact (List.getElem?_eq_some_iff.mp hj).1
    obtain ⟨pj, hpj⟩ : ∃ p, ps[j]? = some p := ⟨ps[j], List.getElem?_eq_getElem hjl⟩
    obtain ⟨⟨hqN, hkN⟩, t, ht1, ht2, ht3⟩ := i3 j pj _ hpj hj
    obtain ⟨a1, a2, a3, a4⟩ := perform_same S (hN j) q hqN i1 ht2 ht3
    refine ⟨a2, by simpa using hlen, ?_, ?_⟩
    · intro i p p' h1 h2
      by_cases hij : i = j
      · subst hij
        rw [List.getElem?_set_self (by omega)] at h2
        cases h2
        rw [hpj] at h1; cases h1
        refine ⟨hkN _, (perform (Graph.ops T) t q).2, ?_, a3, a4⟩
        rw [ht1, Prog.run, a1]
      · rw [List.getElem?_set_ne (fun e => hij e.symm)] at h2
        obtain ⟨hw', t', b1, b2, b3⟩ := i3 i p p' h1 h2
        refine ⟨hw', t', b1, S.less (by omega) b2, fun c hc' => ?_⟩
        rw [perform_other S q (S.less (Nat.zero_le _) i1) (d := c) (fun e => hij (hd i j c hc' (by rw [e]; exact hqN)))]
        exact b3 c hc'
    · intro d hdn
      rw [perform_other S q (S.less (Nat.zero_le _) i1) (d := d) (fun e => hdn j hjl (by rw [e]; exact hqN))]
      exact i4 d hdn

/-- What two states show under a name. -/
theorem shows_same (S : Isolates T I b world legal) {s t : τ} (hs : I 0 s) (ht : I 0 t) (n : Element) (h : world s n.text = world t n.text) :
    (Graph.ops T).entries s n = (Graph.ops T).entries t n ∧ (Listed T s n.text ↔ Listed T t n.text) := by
  refine ⟨?_, ?_⟩
  · show (T.triples s n.text).map _ = (T.triples t n.text).map _
    rw [S.read s t _ hs ht h]
  · rw [(S.agrees _ hs).listed, (S.agrees _ ht).listed, h]

/-- Names of the scripts in a list. -/
theorem isolated_of (S : Isolates T I b world legal) (scripts : List (List Call))
    (hd : ∀ (i j : Nat) (A B : List Call), scripts[i]? = some A → scripts[j]? = some B → i ≠ j → ∀ x, CallsUse A x → ¬ CallsUse B x)
    (hN : ∀ A ∈ scripts, ∀ x, CallsUse A x → legal x) {K : Nat} {s : τ} (hI : I K s)
    {tr : List (Nat × Ask)} {s' : τ} {ps' : List Prog} (h : Interleaved (Graph.ops T) s (scripts.map callsP) tr s' ps') (hc : trCost tr ≤ K) :
    (∀ (i : Nat) (A : List Call) (r : Res Value), scripts[i]? = some A → ps'[i]? = some (.ret r) →
      (runCalls (Graph.ops T) common A s).1 = r ∧
      ∀ n : Element, CallsUse A n.text →
        (Graph.ops T).entries s' n = (Graph.ops T).entries (runCalls (Graph.ops T) common A s).2 n ∧
        (Listed T s' n.text ↔ Listed T (runCalls (Graph.ops T) common A s).2 n.text)) ∧
    ∀ n : Element, (∀ A ∈ scripts, ¬ CallsUse A n.text) →
      (Graph.ops T).entries s' n = (Graph.ops T).entries s n ∧ (Listed T s' n.text ↔ Listed T s n.text) := by
  let N : Nat → Str → Prop := fun i x => ∃ A, scripts[i]? = some A ∧ CallsUse A x
  have hNd : ∀ i j x, N i x → N j x → i = j := by
    rintro i j x ⟨A, hA, ha⟩ ⟨B, hB, hb⟩
    exact Classical.byContradiction fun hij => hd i j A B hA hB hij x ha hb
  have hNl : ∀ i x, N i x → legal x := by
    rintro i x ⟨A, hA, ha⟩
    exact hN A (List.mem_of_getElem? hA) x ha
  have hp : ∀ i p, (scripts.map callsP)[i]? = some p → UsesOnly (N i) p := by
    intro i p hip
    rw [List.getElem?_map] at hip
    cases hA : scripts[i]? with
    | none => rw [hA] at hip; cases hip
    | some A =>
      rw [hA] at hip; cases hip
      exact Steps.UsesOnly.mono (fun x hx => ⟨A, hA, hx⟩) _ (usesOnly_callsP A)
  obtain ⟨j1, j2, j3, j4⟩ := interleaved_inv S hNd hNl hI hp h hc
  have z' := S.less (Nat.zero_le _) j1
  refine ⟨?_, ?_⟩
  · intro i A r hA hr
    obtain ⟨_, t, e, ht, hw⟩ := j3 i (callsP A) (.ret r) (by rw [List.getElem?_map, hA]; rfl) hr
    rw [run_callsP] at e
    rw [e]
    refine ⟨rfl, fun n hn => ?_⟩
    exact shows_same S z' (S.less (Nat.zero_le _) ht) n (hw _ ⟨A, hA, hn⟩)
  · intro n hn
    refine shows_same S z' (S.less (Nat.zero_le _) hI) n (j4 _ ?_)
    rintro i _ ⟨A, hA, ha⟩
    exact hn A (List.mem_of_getElem? hA) ha
/-- A program in two states that look alike under the names it uses. -/
theorem prog_same (S : Isolates T I b world legal) {N : Str → Prop} (hN : ∀ c, N c → legal c) : ∀ (p : Prog) (_ : UsesOnly N p) {k : Nat} {s t : τ}
    (_ : I (progCost (Graph.ops T) p s + k) s) (_ : I (progCost (Graph.ops T) p s + k) t) (_ : ∀ c, N c → world s c = world t c),
    (p.run (Graph.ops T) s).1 = (p.run (Graph.ops T) t).1 ∧ progCost (Graph.ops T) p t = progCost (Graph.ops T) p s ∧
    I k (p.run (Graph.ops T) s).2 ∧ I k (p.run (Graph.ops T) t).2 ∧
    ∀ c, N c → world (p.run (Graph.ops T) s).2 c = world (p.run (Graph.ops T) t).2 c := by
  intro p
  induction p with
  | ret r =>
    intro _ k s t hs ht hw
    simp only [progCost, Nat.zero_add] at hs ht
    exact ⟨rfl, rfl, hs, ht, hw⟩
  | ask q f ih =>
    rintro ⟨hq, hf⟩ k s t hs ht hw
    simp only [progCost, Nat.add_assoc] at hs ht
    obtain ⟨a1, a2, a3, a4⟩ := perform_same S hN q hq hs ht hw
    obtain ⟨b1, b2, b3, b4, b5⟩ := ih _ (hf _) a2 a3 a4
    simp only [Prog.run, progCost, ← a1]
    exact ⟨b1, by rw [b2], b3, b4, b5⟩

/-- Collections a program does not use. -/
theorem prog_other (S : Isolates T I b world legal) {N : Str → Prop} {d : Str} (hd : ¬ N d) : ∀ (p : Prog) (_ : UsesOnly N p) {k : Nat} {s : τ}
    (_ : I (progCost (Graph.ops T) p s + k) s), I k (p.run (Graph.ops T) s).2 ∧ world (p.run (Graph.ops T) s).2 d = world s d := by
  intro p
  induction p with
  | ret r =>
    intro _ k s hs
    simp only [progCost, Nat.zero_add] at hs
    exact ⟨hs, rfl⟩
  | ask q f ih =>
    rintro ⟨hq, hf⟩ k s hs
    simp only [progCost, Nat.add_assoc] at hs
    have hi : I (progCost (Graph.ops T) (f (perform (Graph.ops T) s q).1) (perform (Graph.ops T) s q).2 + k) (perform (Graph.ops T) s q).2 := by
      cases q with
      | entries c => simp only [askCost, Nat.zero_add] at hs; exact hs
      | filter c p => simp only [askCost, Nat.zero_add] at hs; exact hs
      | addCollection c => exact S.inv _ s (.addCollection c.text) hs
      | addEntries c es =>
        have hlen := length_map_le Graph.entryToTrip es
        refine S.inv _ s (.addTriples c.text (es.map Graph.entryToTrip)) (S.less ?_ hs)
        simp only [Op.cost, askCost]; omega
    obtain ⟨b1, b2⟩ := ih _ (hf _) hi
    refine ⟨b1, b2.trans ?_⟩
    exact perform_other S q (S.less (Nat.zero_le _) hs) (fun e => hd (by rw [e]; exact hq))

theorem commute_progs (S : Isolates T I b world legal) {N M : Str → Prop} (hN : ∀ c, N c → legal c) (hM : ∀ c, M c → legal c)
    (hd : ∀ x, N x → ¬ M x) (p q : Prog) (hp : UsesOnly N p) (hq : UsesOnly M q) {s : τ}
    (hs : I (progCost (Graph.ops T) p s + progCost (Graph.ops T) q s) s) :
    let rA := p.run (Graph.ops T) s
    let rB := q.run (Graph.ops T) s
    let rAB := q.run (Graph.ops T) rA.2
    let rBA := p.run (Graph.ops T) rB.2
    rAB.1 = rB.1 ∧ rBA.1 = rA.1 ∧ I 0 rAB.2 ∧ I 0 rBA.2 ∧ world rAB.2 = world rBA.2 := by
  intro rA rB rAB rBA
  have fA : ∀ d, ¬ N d → I (progCost (Graph.ops T) q s) rA.2 ∧ world rA.2 d = world s d := fun d h => prog_other S h p hp hs
  have fB : ∀ d, ¬ M d → I (progCost (Graph.ops T) p s) rB.2 ∧ world rB.2 d = world s d := fun d h => prog_other S h q hq (by rw [Nat.add_comm]; exact hs)
  have iA : I (progCost (Graph.ops T) q s) rA.2 := (prog_same S hN p hp hs hs (fun _ _ => rfl)).2.2.1
  have iB : I (progCost (Graph.ops T) p s) rB.2 := (prog_same S hM q hq (Nat.add_comm _ _ ▸ hs) (Nat.add_comm _ _ ▸ hs) (fun _ _ => rfl)).2.2.1
  obtain ⟨a1, a2, a3, a4, a5⟩ := prog_same S hM q hq (k := 0) (s := s) (t := rA.2) (S.less (by omega) hs) iA
    (fun c hc => ((fA c (fun h => hd c h hc)).2).symm)
  obtain ⟨b1, b2, b3, b4, b5⟩ := prog_same S hN p hp (k := 0) (s := s) (t := rB.2) (S.less (by omega) hs) iB
    (fun c hc => ((fB c (hd c hc)).2).symm)
  have gA : ∀ d, ¬ M d → world rAB.2 d = world rA.2 d := fun d h => (prog_other S h q hq (k := 0) (by rw [a2]; exact iA)).2
  have gB : ∀ d, ¬ N d → world rBA.2 d = world rB.2 d := fun d h => (prog_other S h p hp (k := 0) (by rw [b2]; exact iB)).2
  refine ⟨a1.symm, b1.symm, a4, b4, ?_⟩
  funext c
  by_cases hB : M c
  · rw [← show world rB.2 c = world rAB.2 c from a5 c hB, gB c (fun h => hd c h hB)]
  · rw [gA c hB]
    by_cases hA : N c
    · exact b5 c hA
    · rw [gB c hA, (fA c hA).2, (fB c hB).2]

end

/-- C62, LMDB store, in every reachable state: calls that name different (legal) collections do not interfere, as long as identifiers do not run
out: each gives the same result before and after the other, and both orders leave the same collections with the same triples. -/
theorem C62_commute_heed (l : List Op) (A B : List Call)
    (hd : ∀ a ∈ A, ∀ n : Element, CallUses n a → ∀ b ∈ B, ∀ m : Element, CallUses m b → n.text ≠ m.text)
    (hk : ∀ c ∈ A ++ B, ∀ n : Element, CallUses n c → Heed.lmdbKey n.text = true)
    (hc : costOf l + progCost (Graph.ops Heed.ops) (callsP A) (runOps Heed.ops Heed.new l).2 +
      progCost (Graph.ops Heed.ops) (callsP B) (runOps Heed.ops Heed.new l).2 ≤ 2 ^ 64) :
    let s := (runOps Heed.ops Heed.new l).2
    let rA := runCalls (Graph.ops Heed.ops) common A s
    let rB := runCalls (Graph.ops Heed.ops) common B s
    let rAB := runCalls (Graph.ops Heed.ops) common B rA.2
    let rBA := runCalls (Graph.ops Heed.ops) common A rB.2
    rAB.1 = rB.1 ∧ rBA.1 = rA.1 ∧ SameView Heed.ops rAB.2 Heed.ops rBA.2 := by
  intro s rA rB rAB rBA
  have h := commute_progs heed_isolates (N := CallsUse A) (M := CallsUse B)
    (fun x ⟨c, h, n, hn, e⟩ => e ▸ hk c (List.mem_append_left _ h) n hn) (fun x ⟨c, h, n, hn, e⟩ => e ▸ hk c (List.mem_append_right _ h) n hn)
    (fun x ⟨a, ha, n, hn, e⟩ ⟨b, hb, m, hm, e'⟩ => hd a ha n hn b hb m hm (e.trans e'.symm)) (callsP A) (callsP B) (usesOnly_callsP A) (usesOnly_callsP B)
    (s := s) ⟨Heed.good_runOps l _ Heed.good_new, Heed.room_runOps l _ _ Heed.good_new (by
      show Heed.used Heed.new + _ ≤ _
      rw [show Heed.used Heed.new = 0 from rfl]
      have hc' : costOf l + progCost (Graph.ops Heed.ops) (callsP A) s + progCost (Graph.ops Heed.ops) (callsP B) s ≤ 2 ^ 64 := hc
      omega)⟩
  simp only [run_callsP] at h
  obtain ⟨h1, h2, h3, h4, h5⟩ := h
  refine ⟨h1, h2, ?_⟩
  have a := heed_isolates.agrees _ h3
  have b := heed_isolates.agrees _ h4
  rw [h5] at a
  exact a.sameView b

/-- C73: the step-by-step form of a script, run undisturbed, is the script. -/
theorem C73_steps_are_run (L : LigOps σ) (script : Str) (calls : List Call) (s : σ) :
    (scriptP script).run L s = run L common script s ∧ (callsP calls).run L s = runCalls L common calls s :=
  ⟨run_scriptP L script s, run_callsP L calls s⟩

/-- C73, LMDB store: scripts that name different collections (legal names, enough identifiers) can run at the same time on one environment, their
store operations interleaved in any way: each script that finishes has the result it has alone, its collections are then and stay as it
leaves them alone, whatever the other scripts have done so far, and collections no script names are as before. -/
theorem C73_isolated_heed (l : List Op) (scripts : List (List Call))
    (hd : ∀ (i j : Nat) (A B : List Call), scripts[i]? = some A → scripts[j]? = some B → i ≠ j → ∀ x, CallsUse A x → ¬ CallsUse B x)
    (hk : ∀ A ∈ scripts, ∀ x, CallsUse A x → Heed.lmdbKey x = true)
    {tr : List (Nat × Ask)} {s' : Heed} {ps' : List Prog}
    (h : Interleaved (Graph.ops Heed.ops) (runOps Heed.ops Heed.new l).2 (scripts.map callsP) tr s' ps') (hc : costOf l + trCost tr ≤ 2 ^ 64) :
    let s := (runOps Heed.ops Heed.new l).2
    (∀ (i : Nat) (A : List Call) (r : Res Value), scripts[i]? = some A → ps'[i]? = some (.ret r) →
      (runCalls (Graph.ops Heed.ops) common A s).1 = r ∧
      ∀ n : Element, CallsUse A n.text →
        (Graph.ops Heed.ops).entries s' n = (Graph.ops Heed.ops).entries (runCalls (Graph.ops Heed.ops) common A s).2 n ∧
        (Listed Heed.ops s' n.text ↔ Listed Heed.ops (runCalls (Graph.ops Heed.ops) common A s).2 n.text)) ∧
    ∀ n : Element, (∀ A ∈ scripts, ¬ CallsUse A n.text) →
      (Graph.ops Heed.ops).entries s' n = (Graph.ops Heed.ops).entries s n ∧ (Listed Heed.ops s' n.text ↔ Listed Heed.ops s n.text) :=
  isolated_of heed_isolates scripts hd hk (K := trCost tr)
    ⟨Heed.good_runOps l _ Heed.good_new, Heed.room_runOps l _ _ Heed.good_new (by simp only [Heed.Room, Heed.used, Heed.new]; omega)⟩
    h (Nat.le_refl _)

/-- C73, in-memory and DuckDB stores (shared behind a lock, each operation under it): likewise, with no condition on names or identifiers. -/
theorem C73_isolated_mem (s : Mem) (scripts : List (List Call))
    (hd : ∀ (i j : Nat) (A B : List Call), scripts[i]? = some A → scripts[j]? = some B → i ≠ j → ∀ x, CallsUse A x → ¬ CallsUse B x)
    {tr : List (Nat × Ask)} {s' : Mem} {ps' : List Prog} (h : Interleaved (Graph.ops Mem.ops) s (scripts.map callsP) tr s' ps') :
    (∀ (i : Nat) (A : List Call) (r : Res Value), scripts[i]? = some A → ps'[i]? = some (.ret r) →
      (runCalls (Graph.ops Mem.ops) common A s).1 = r ∧
      ∀ n : Element, CallsUse A n.text →
        (Graph.ops Mem.ops).entries s' n = (Graph.ops Mem.ops).entries (runCalls (Graph.ops Mem.ops) common A s).2 n ∧
        (Listed Mem.ops s' n.text ↔ Listed Mem.ops (runCalls (Graph.ops Mem.ops) common A s).2 n.text)) ∧
    ∀ n : Element, (∀ A ∈ scripts, ¬ CallsUse A n.text) →
      (Graph.ops Mem.ops).entries s' n = (Graph.ops Mem.ops).entries s n ∧ (Listed Mem.ops s' n.text ↔ Listed Mem.ops s n.text) :=
  isolated_of mem_isolates scripts hd (fun _ _ _ _ => trivial) (K := trCost tr) trivial h (Nat.le_refl _)

theorem C73_isolated_duck (l : List Op) (scripts : List (List Call))
    (hd : ∀ (i j : Nat) (A B : List Call), scripts[i]? = some A → scripts[j]? = some B → i ≠ j → ∀ x, CallsUse A x → ¬ CallsUse B x)
    {tr : List (Nat × Ask)} {s' : Duck} {ps' : List Prog}
    (h : Interleaved (Graph.ops Duck.ops) (runOps Duck.ops Duck.new l).2 (scripts.map callsP) tr s' ps') :
    let s := (runOps Duck.ops Duck.new l).2
    (∀ (i : Nat) (A : List Call) (r : Res Value), scripts[i]? = some A → ps'[i]? = some (.ret r) →
      (runCalls (Graph.ops Duck.ops) common A s).1 = r ∧
      ∀ n : Element, CallsUse A n.text →
        (Graph.ops Duck.ops).entries s' n = (Graph.ops Duck.ops).entries (runCalls (Graph.ops Duck.ops) common A s).2 n ∧
        (Listed Duck.ops s' n.text ↔ Listed Duck.ops (runCalls (Graph.ops Duck.ops) common A s).2 n.text)) ∧
    ∀ n : Element, (∀ A ∈ scripts, ¬ CallsUse A n.text) →
      (Graph.ops Duck.ops).entries s' n = (Graph.ops Duck.ops).entries s n ∧ (Listed Duck.ops s' n.text ↔ Listed Duck.ops s n.text) :=
  isolated_of duck_isolates scripts hd (fun _ _ _ _ => trivial) (K := trCost tr) (duck_inv l) h (Nat.le_refl _)

theorem finish_one (L : LigOps σ) {s : σ} {ps : List Prog} (i : Nat) (p : Prog) : ∀ {tr s1 ps1}, Interleaved L s ps tr s1 ps1 → ps1[i]? = some p →
    ∃ tr2 s2 r, Interleaved L s ps (tr ++ tr2) s2 (ps1.set i (.ret r)) ∧ ∀ e ∈ tr2, e.1 = i := by
  induction p with
  | ret r =>
    intro tr s1 ps1 h hp
    refine ⟨[], s1, r, ?_, by simp⟩
    have hi := (List.getElem?_eq_some_iff.mp hp).1
    have : ps1.set i (.ret r) = ps1 := by
      apply List.ext_getElem?
      intro j
      by_cases hj : i = j
      · subst hj; rw [List.getElem?_set_self hi, hp]
      · rw [List.getElem?_set_ne hj]
    rw [this, List.append_nil]; exact h
  | ask q k ih =>
    intro tr s1 ps1 h hp
    have hi := (List.getElem?_eq_some_iff.mp hp).1
    obtain ⟨tr2, s2, r, h2, he⟩ := ih _ (Interleaved.step i q k h hp) (List.getElem?_set_self hi)
    refine ⟨(i, q) :: tr2, s2, r, ?_, ?_⟩
    · rw [List.set_set, List.append_assoc] at h2; exact h2
    · intro e he'
      rcases List.mem_cons.mp he' with rfl | he'
      · rfl
      · exact he e he'

/-- C73: nobody waits: whatever has happened, every script can run to its end by its own operations alone, over any store. -/
theorem C73_never_waits (L : LigOps σ) {s : σ} {ps : List Prog} {tr : List (Nat × Ask)} {s1 : σ} {ps1 : List Prog}
    (h : Interleaved L s ps tr s1 ps1) (i : Nat) (hi : i < ps1.length) :
    ∃ tr2 s2 ps2 r, Interleaved L s ps (tr ++ tr2) s2 ps2 ∧ ps2[i]? = some (.ret r) ∧ ∀ e ∈ tr2, e.1 = i := by
  obtain ⟨tr2, s2, r, h2, he⟩ := finish_one L i _ h (List.getElem?_eq_getElem hi)
  exact ⟨tr2, s2, _, r, h2, List.getElem?_set_self hi, he⟩

/-- C73: scripts that name the same collection are not isolated.  In every reachable state of the LMDB store, for every unlisted legal name and
non-empty network: `let c n` and `read c` at the same time can end with `read` returning the empty network, which happens neither when `read` runs
before the `let` nor when it runs after. -/
theorem C73_conflict_heed (l : List Op) (c : Element) (n : Network) (hc : ¬ Listed Heed.ops (runOps Heed.ops Heed.new l).2 c.text)
    (hk : Heed.lmdbKey c.text = true) (hn : n ≠ ∅) (hr : costOf l + 1 + 3 * n.toList.length ≤ 2 ^ 64) :
    let L := Graph.ops Heed.ops
    let s := (runOps Heed.ops Heed.new l).2
    let A := [call "let" [.element c, .network n]]
    let B := [call "read" [.element c]]
    (∃ tr s', Interleaved L s [callsP A, callsP B] tr s' [.ret (.ok (.network ∅)), .ret (.ok (.network ∅))]) ∧
    (runCalls L common B s).1 = .panic ∧
    ∃ m, (runCalls L common B (runCalls L common A s).2).1 = .ok (.network m) ∧ m ≠ ∅ := by
  intro L s A B
  refine ⟨?_, ?_, ?_⟩
  · have hg := heed_good l
    have hlen := length_map_le Graph.entryToTrip n
    have hroom : Heed.Room (runOps Heed.ops Heed.new l).2 (1 + (3 * (n.map Graph.entryToTrip).toList.length + 0)) := by
      apply Heed.room_runOps l _ _ Heed.good_new
      simp only [Heed.Room, Heed.used, Heed.new]; omega
    rw [heed_listed hg, Option.not_isSome_iff_eq_none] at hc
    obtain ⟨a1, a2, a3⟩ := heed_follower.addCollection _ _ c.text ⟨hg, hroom⟩ hc hk
    have hw : Heed.worldOf (exec Heed.ops s (.addCollection c.text)).2 c.text = some (fun _ => False) := by
      rw [show Heed.worldOf (exec Heed.ops s (.addCollection c.text)).2 = _ from a3]; simp [apply, hc]
    obtain ⟨b1, b2, b3⟩ := heed_follower.addTriples _ _ c.text (n.map Graph.entryToTrip) a2 (by rw [hw]; rfl)
    have read0 : Heed.ops.triples (exec Heed.ops s (.addCollection c.text)).2 c.text = .ok ∅ := by
      obtain ⟨us, h1, h2⟩ := (heed_agrees a2.1).2 c.text _ hw
      rw [h1, show us = ∅ from BSet.ext (fun t => by rw [h2]; simp)]
    have q1 : perform L s (.addCollection c) = (.unit (.ok ()), (exec Heed.ops s (.addCollection c.text)).2) := by
      show (Answer.unit (exec Heed.ops s (.addCollection c.text)).1.errTodo, _) = _
      rw [show (exec Heed.ops s (.addCollection c.text)).1 = .ok () from a1]; rfl
    have q2 : perform L (exec Heed.ops s (.addCollection c.text)).2 (.entries c) = (.network (.ok ∅), (exec Heed.ops s (.addCollection c.text)).2) := by
      show (Answer.network ((Heed.ops.triples _ c.text).map _), _) = _
      rw [read0]; rfl
    have q3 : (perform L (exec Heed.ops s (.addCollection c.text)).2 (.addEntries c n)).1 = .unit (.ok ()) := by
      show Answer.unit (exec Heed.ops _ (.addTriples c.text _)).1.errTodo = _
      rw [show (exec Heed.ops (exec Heed.ops s (.addCollection c.text)).2 (.addTriples c.text _)).1 = .ok () from b1]; rfl
    have i0 := Interleaved.start (L := L) (s := s) (ps := [callsP A, callsP B])
    have i1 := Interleaved.step 0 (.addCollection c) _ i0 rfl
    rw [q1] at i1
    have i2 := Interleaved.step 1 (.entries c) _ i1 rfl
    rw [q2] at i2
    have i3 := Interleaved.step 0 (.addEntries c n) _ i2 rfl
    rw [q3] at i3
    exact ⟨_, _, i3⟩
  · rw [((C59_read_missing l c).2.1 hc)]
  · obtain ⟨s', h1, h2⟩ := C59_let_new_heed l c c n rfl hc hk hr
    refine ⟨n.map canon, ?_, ?_⟩
    · rw [show runCalls L common A s = _ from h1, show runCalls L common B s' = _ from h2]
    · intro e
      apply hn
      apply BSet.ext; intro x
      constructor
      · intro hx
        have : canon x ∈ (n.map canon) := BSet.mem_map.mpr ⟨x, hx, rfl⟩
        rw [e] at this; exact absurd this (by simp)
      · intro hx; exact absurd hx (by simp)

/-- The hypotheses of `C73_conflict_heed` hold after `sampleOps` for a name not used there. -/
example : ¬ Listed Heed.ops (runOps Heed.ops Heed.new sampleOps).2 (Element.of (lit "new")).text ∧
    Heed.lmdbKey (Element.of (lit "new")).text = true ∧ sampleNet ≠ ∅ ∧ costOf sampleOps + 1 + 3 * sampleNet.toList.length ≤ 2 ^ 64 := by
  refine ⟨?_, by decide +kernel, ?_, by decide +kernel⟩
  · rw [heed_listed (heed_good _)]; decide +kernel
  · intro e
    have : sampleNet.toList = [] := by rw [e]; rfl
    exact absurd this (by decide +kernel)

/-- Play a schedule: the listed programs make their next operation, one after the other. -/
def play (L : LigOps σ) : List Nat → List (Nat × Ask) × σ × List Prog → List (Nat × Ask) × σ × List Prog
  | [], x => x
  | i :: is, (tr, s, ps) =>
    match ps[i]? with
    | some (.ask q k) => play L is (tr ++ [(i, q)], (perform L s q).2, ps.set i (k (perform L s q).1))
    | _ => play L is (tr, s, ps)

theorem play_interleaved (L : LigOps σ) {s : σ} {ps : List Prog} : ∀ (is : List Nat) (x : List (Nat × Ask) × σ × List Prog),
    Interleaved L s ps x.1 x.2.1 x.2.2 → Interleaved L s ps (play L is x).1 (play L is x).2.1 (play L is x).2.2
  | [], _, h => h
  | i :: is, (tr, s1, ps1), h => by
    unfold play
    split
    · rename_i q k hq
      exact play_interleaved L is _ (Interleaved.step i q k h hq)
    · exact play_interleaved L is _ h

/-- The result, if finished. -/
def finished : Prog → Option (Res Value)
  | .ret r => some r
  | .ask _ _ => none

/-- A second script that writes and reads. -/
def writeH : List Call := [call "let" [.element (.of (lit "H")), .network sampleNet], call "read" [.element (.of (lit "H"))]]

theorem writeH_names : ∀ a ∈ writeH, ∀ n : Element, CallUses n a → n.text = lit "H" := by
  intro a ha n hn
  simp only [writeH, List.mem_cons, List.not_mem_nil, or_false] at ha
  rcases ha with rfl | rfl
  · rcases hn with ⟨_, rest, h⟩ | h
    · simp only [call, List.cons.injEq, Value.element.injEq] at h
      rw [← h.1]
    · simp only [call, UsesInList, UsesIn, or_false] at h
  · rcases hn with ⟨_, rest, h⟩ | h
    · simp only [call, List.cons.injEq, Value.element.injEq] at h
      rw [← h.1]
    · simp only [call, UsesInList, UsesIn, or_false] at h

/-- The hypotheses of the isolation theorems hold for `useG` and `writeH` after `sampleOps`: their names differ and are legal, -/
example : (∀ (i j : Nat) (A B : List Call), [useG, writeH][i]? = some A → [useG, writeH][j]? = some B → i ≠ j → ∀ x, CallsUse A x → ¬ CallsUse B x) ∧
    ∀ A ∈ [useG, writeH], ∀ x, CallsUse A x → Heed.lmdbKey x = true := by
  refine ⟨?_, ?_⟩
  · rintro i j A B hi hj hij x ⟨a, ha, n, hn, rfl⟩ ⟨b, hb, m, hm, hmn⟩
    have hG : lit "G" ≠ lit "H" := by decide
    match i, j with
    | 0, 0 => exact hij rfl
    | 0, 1 =>
      simp only [List.getElem?_cons_zero, List.getElem?_cons_succ, Option.some.injEq] at hi hj
      subst hi; subst hj
      rw [useG_names a ha n hn, writeH_names b hb m hm] at hmn; exact hG hmn.symm
    | 1, 0 =>
      simp only [List.getElem?_cons_zero, List.getElem?_cons_succ, Option.some.injEq] at hi hj
      subst hi; subst hj
      rw [writeH_names a ha n hn, useG_names b hb m hm] at hmn; exact hG hmn
    | 1, 1 => exact hij rfl
    | 0, j + 2 => simp at hj
    | 1, j + 2 => simp at hj
    | i + 2, _ => simp at hi
  · rintro A hA x ⟨a, ha, n, hn, rfl⟩
    simp only [List.mem_cons, List.not_mem_nil, or_false] at hA
    rcases hA with rfl | rfl
    · rw [useG_names a ha n hn]; decide +kernel
    · rw [writeH_names a ha n hn]; decide +kernel

/-- so do those of `C62_commute_heed`; -/
example : (∀ a ∈ useG, ∀ n : Element, CallUses n a → ∀ b ∈ writeH, ∀ m : Element, CallUses m b → n.text ≠ m.text) ∧
    costOf sampleOps + progCost (Graph.ops Heed.ops) (callsP useG) (runOps Heed.ops Heed.new sampleOps).2 +
      progCost (Graph.ops Heed.ops) (callsP writeH) (runOps Heed.ops Heed.new sampleOps).2 ≤ 2 ^ 64 :=
  ⟨fun a ha n hn b hb m hm => by rw [useG_names a ha n hn, writeH_names b hb m hm]; decide, by decide +kernel⟩

/-- and there is a schedule in which they alternate and both finish, with what they wrote. -/
example : ∃ tr s' ps', Interleaved (Graph.ops Heed.ops) (runOps Heed.ops Heed.new sampleOps).2 ([useG, writeH].map callsP) tr s' ps' ∧
    ps'.map finished = [some (.ok (.network (sampleNet.map canon))), some (.ok (.network (sampleNet.map canon)))] ∧
    tr.map (·.1) = [0, 1, 0, 1, 1, 0] ∧ costOf sampleOps + trCost tr ≤ 2 ^ 64 :=
  ⟨_, _, _, play_interleaved _ [0, 1, 0, 1, 1, 0] ([], _, [useG, writeH].map callsP) .start, by decide +kernel, by decide +kernel, by decide +kernel⟩

end Props
end Verif
