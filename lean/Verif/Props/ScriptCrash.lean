import Verif.Spec.Crash
import Verif.Props.Effects
/-!
# C70: the process ends while a script runs on the LMDB-backed store
-/
namespace Verif
namespace Props
open Spec Eval

theorem exec_watched (s : Heed × List Heed) (op : Op) :
    exec watched s op = ((Heed.execTx true s.1 op).1, (Heed.execTx true s.1 op).2.durable, s.2 ++ (Heed.execTx true s.1 op).2.seen) := by
  cases op <;> rfl

theorem exec_heed (s : Heed) (op : Op) : exec Heed.ops s op = ((Heed.execTx true s op).1, (Heed.execTx true s op).2.durable) :=
  Heed.exec_eq true s op

theorem watched_rel : LigRel (fun (a : Heed × List Heed) (t : Heed) => a.1 = t) (Graph.ops watched) (Graph.ops Heed.ops) where
  collections := by rintro ⟨s, l⟩ t rfl; rfl
  entries := by rintro ⟨s, l⟩ t c rfl; rfl
  filter := by rintro ⟨s, l⟩ t c p rfl; rfl
  addCollection := by
    rintro ⟨s, l⟩ t c rfl
    have h1 := exec_watched (s, l) (.addCollection c.text)
    have h2 := exec_heed s (.addCollection c.text)
    simp only [exec] at h1 h2
    simp only [Graph.ops, Graph.addCollection, h1, h2]
    exact ⟨trivial, trivial⟩
  removeCollection := by
    rintro ⟨s, l⟩ t c rfl
    have h1 := exec_watched (s, l) (.removeCollection c.text)
    have h2 := exec_heed s (.removeCollection c.text)
    simp only [exec] at h1 h2
    simp only [Graph.ops, Graph.removeCollection, h1, h2]
    exact ⟨trivial, trivial⟩
  addEntries := by rintro ⟨s, l⟩ t c es rfl; exact ⟨rfl, rfl⟩
  removeEntries := by rintro ⟨s, l⟩ t c es rfl; exact ⟨rfl, rfl⟩

/-- C70: recording the stored states changes nothing: on the recorded store every script has the result, and leaves the stored state, that
it has on the store itself. -/
theorem C70_record_is_faithful (script : Str) (s : Heed) (l : List Heed) :
    (run (Graph.ops watched) common script (s, l)).1 = (run (Graph.ops Heed.ops) common script s).1 ∧
    (run (Graph.ops watched) common script (s, l)).2.1 = (run (Graph.ops Heed.ops) common script s).2 :=
  C26_parametric _ _ _ watched_rel _ _ (C26_standard_table _) script (s, l) s rfl

theorem runCalls_watched (calls : List Call) (s : Heed) (l : List Heed) :
    (runCalls (Graph.ops watched) common calls (s, l)).1 = (runCalls (Graph.ops Heed.ops) common calls s).1 ∧
    (runCalls (Graph.ops watched) common calls (s, l)).2.1 = (runCalls (Graph.ops Heed.ops) common calls s).2 :=
  C26_parametric_calls _ _ _ watched_rel _ _ (C26_standard_table _) calls (s, l) s rfl

/-- One `let` on the recorded store. -/
theorem afterLet_watched {s : Heed} (hg : Heed.Good s) (l : List Heed) (w : Element × Network) :
    (afterLet (Graph.ops watched) (s, l) w).1 = afterLet (Graph.ops Heed.ops) s w ∧
    Heed.Good (afterLet (Graph.ops Heed.ops) s w) ∧
    ∃ m, (afterLet (Graph.ops watched) (s, l) w).2 = l ++ m ∧
      ∀ d ∈ m, d = s ∨ d = (exec Heed.ops s (.addCollection w.1.text)).2 ∨ d = afterLet (Graph.ops Heed.ops) s w := by
  simp only [afterLet_eq, letStore_graph, exec_watched, exec_heed]
  obtain ⟨a1, a2, _, a4, _⟩ := Heed.exec_spec hg true (.addCollection w.1.text)
  rcases e1 : Heed.execTx true s (.addCollection w.1.text) with ⟨r1, x1⟩
  rw [e1] at a1 a2 a4
  simp only at a1 a2 a4
  have stop : ∃ m, l ++ x1.seen = l ++ m ∧ ∀ d ∈ m, d = s ∨ d = x1.durable ∨ d = x1.durable :=
    ⟨_, rfl, fun d hd => (a1 d hd).imp_right .inl⟩
  cases r1 with
  | err m => exact ⟨rfl, a4, stop⟩
  | panic => exact ⟨rfl, a4, stop⟩
  | ok u =>
    simp only
    obtain ⟨b1, b2, _, b4, _⟩ := Heed.exec_spec a4 true (.addTriples w.1.text (w.2.map Graph.entryToTrip))
    rcases e2 : Heed.execTx true x1.durable (.addTriples w.1.text (w.2.map Graph.entryToTrip)) with ⟨r2, x2⟩
    rw [e2] at b1 b2 b4
    simp only at b1 b2 b4
    have done : ∃ m, l ++ x1.seen ++ x2.seen = l ++ m ∧ ∀ d ∈ m, d = s ∨ d = x1.durable ∨ d = x2.durable := by
      refine ⟨x1.seen ++ x2.seen, by simp, fun d hd => ?_⟩
      rcases List.mem_append.mp hd with hd | hd
      · exact (a1 d hd).imp_right .inl
      · exact .inr (b1 d hd)
    cases r2 <;> exact ⟨rfl, b4, done⟩

theorem afterLets_watched (ws : List (Element × Network)) : ∀ {s : Heed} (_ : Heed.Good s) (l : List Heed),
    (afterLets (Graph.ops watched) (s, l) ws).1 = afterLets (Graph.ops Heed.ops) s ws ∧
    ∃ m, (afterLets (Graph.ops watched) (s, l) ws).2 = l ++ m ∧
      ∀ d ∈ m, (∃ k, d = afterLets (Graph.ops Heed.ops) s (ws.take k)) ∨
        ∃ k w, ws[k]? = some w ∧ d = (exec Heed.ops (afterLets (Graph.ops Heed.ops) s (ws.take k)) (.addCollection w.1.text)).2 := by
  induction ws with
  | nil => intro s _ l; exact ⟨rfl, [], by simp [afterLets], by simp⟩
  | cons w ws ih =>
    intro s hg l
    obtain ⟨h1, h2, m, h3, h4⟩ := afterLet_watched hg l w
    obtain ⟨i1, m', i2, i3⟩ := ih h2 (l ++ m)
    have e : afterLet (Graph.ops watched) (s, l) w = (afterLet (Graph.ops Heed.ops) s w, l ++ m) := by rw [← h1, ← h3]
    rw [show afterLets (Graph.ops watched) (s, l) (w :: ws) = afterLets (Graph.ops watched) (afterLet (Graph.ops watched) (s, l) w) ws from rfl, e]
    refine ⟨i1, m ++ m', by rw [i2]; simp, fun d hd => ?_⟩
    rcases List.mem_append.mp hd with hd | hd
    · rcases h4 d hd with rfl | rfl | rfl
      · exact .inl ⟨0, rfl⟩
      · exact .inr ⟨0, w, rfl, rfl⟩
      · exact .inl ⟨1, by simp [afterLets]⟩
    · rcases i3 d hd with ⟨k, rfl⟩ | ⟨k, u, hu, rfl⟩
      · exact .inl ⟨k + 1, rfl⟩
      · exact .inr ⟨k + 1, u, by simpa using hu, rfl⟩

/-- C70: what can be found after the process ended somewhere in the middle of a script, on any reachable store, is the work of the first
few of its `let`s (wherever they stand in the script), all of each, or those and the still empty collection of the next `let`. -/
theorem C70_crash_points (l : List Op) (calls : List Call) :
    let s := (runOps Heed.ops Heed.new l).2
    ∃ ws : List (Element × Network), (∀ w ∈ ws, ∃ c ∈ calls, CallLets w.1 c) ∧
      (runCalls (Graph.ops Heed.ops) common calls s).2 = afterLets (Graph.ops Heed.ops) s ws ∧
      ∀ d ∈ crashStates calls s, (∃ k, d = afterLets (Graph.ops Heed.ops) s (ws.take k)) ∨
        ∃ k w, ws[k]? = some w ∧ d = (Heed.ops.addCollection (afterLets (Graph.ops Heed.ops) s (ws.take k)) w.1.text).2 := by
  intro s
  obtain ⟨ws, h1, h2⟩ := C60_effect_is_lets (Graph.ops watched) calls (s, [])
  obtain ⟨e1, m, e2, e3⟩ := afterLets_watched ws (heed_good l) []
  refine ⟨ws, h1, ?_, ?_⟩
  · rw [← e1]
    have := (runCalls_watched calls s []).2
    rw [← this, h2]
  · intro d hd
    rw [crashStates, h2, e2] at hd
    exact e3 d (by simpa using hd)

theorem keepsAll_step {s t : Heed} (hg : Heed.Good t) (op : Op) (ho : (∃ c, op = .addCollection c) ∨ ∃ c ts, op = .addTriples c ts)
    (h : KeepsAll s t) : KeepsAll s (exec Heed.ops t op).2 := by
  intro c ts hts
  obtain ⟨us, h1, h2⟩ := h c ts hts
  suffices hx : ∃ vs, Heed.ops.triples (exec Heed.ops t op).2 c = .ok vs ∧ ∀ x ∈ us, x ∈ vs by
    obtain ⟨vs, h3, h4⟩ := hx
    exact ⟨vs, h3, fun x hx => h4 x (h2 x hx)⟩
  have hl : Listed Heed.ops t c := by
    rw [heed_listed hg, Option.isSome_iff_ne_none]
    intro hn
    rw [show Heed.ops.triples t c = .panic from Heed.triples_missing hg hn] at h1
    cases h1
  by_cases e : c = op.target
  · rcases ho with ⟨n, rfl⟩ | ⟨n, xs, rfl⟩
    · subst e
      rw [heed_addCollection_listed hg _ hl]
      exact ⟨us, h1, fun _ h => h⟩
    · simp only [Op.target] at e
      subst e
      obtain ⟨p, hp⟩ := Option.isSome_iff_exists.mp ((heed_listed hg c).mp hl)
      obtain ⟨us', g1, g2⟩ := (heed_agrees hg).2 c p hp
      rw [h1] at g1; cases g1
      have hg' := Heed.good_exec hg true (.addTriples c xs)
      have hw := Heed.worldOf_exec hg (.addTriples c xs) trivial
      cases hr : (exec Heed.ops t (.addTriples c xs)).1 with
      | ok u =>
        rw [hr] at hw
        have hw' : Heed.worldOf (exec Heed.ops t (.addTriples c xs)).2 c = some (fun x => p x ∨ x ∈ xs) := by
          rw [hw]; simp [applyEvent, apply, hp]
        obtain ⟨vs, k1, k2⟩ := (heed_agrees hg').2 c _ hw'
        exact ⟨vs, k1, fun x hx => (k2 x).mpr (.inl ((g2 x).mp hx))⟩
      | err m =>
        rw [hr] at hw
        have hw' : Heed.worldOf (exec Heed.ops t (.addTriples c xs)).2 c = some p := by rw [hw]; exact hp
        obtain ⟨vs, k1, k2⟩ := (heed_agrees hg').2 c _ hw'
        exact ⟨vs, k1, fun x hx => (k2 x).mpr ((g2 x).mp hx)⟩
      | panic =>
        rw [hr] at hw
        have hw' : Heed.worldOf (exec Heed.ops t (.addTriples c xs)).2 c = some p := by rw [hw]; exact hp
        obtain ⟨vs, k1, k2⟩ := (heed_agrees hg').2 c _ hw'
        exact ⟨vs, k1, fun x hx => (k2 x).mpr ((g2 x).mp hx)⟩
  · refine ⟨us, ?_, fun _ h => h⟩
    rw [(heed_refines.isolated hg op c e).1]; exact h1

theorem afterLets_keeps (ws : List (Element × Network)) {s t : Heed} (hg : Heed.Good t) (h : KeepsAll s t) :
    Heed.Good (afterLets (Graph.ops Heed.ops) t ws) ∧ KeepsAll s (afterLets (Graph.ops Heed.ops) t ws) := by
  induction ws generalizing t with
  | nil => exact ⟨hg, h⟩
  | cons w ws ih =>
    have := let_graph_state Heed.ops (fun t => Heed.Good t ∧ KeepsAll s t) w.1 w.2
      (fun t h => ⟨Heed.good_exec h.1 true _, keepsAll_step h.1 _ (.inl ⟨_, rfl⟩) h.2⟩)
      (fun t ts h => ⟨Heed.good_exec h.1 true _, keepsAll_step h.1 _ (.inr ⟨_, _, rfl⟩) h.2⟩) t ⟨hg, h⟩
    exact ih this.1 this.2

/-- C70: whenever the process ends in the middle of a script, every collection stored before is still there with all its triples. -/
theorem C70_nothing_lost (l : List Op) (calls : List Call) :
    let s := (runOps Heed.ops Heed.new l).2
    ∀ d ∈ crashStates calls s, KeepsAll s d := by
  intro s d hd
  obtain ⟨ws, _, _, h⟩ := C70_crash_points l calls
  have refl : KeepsAll s s := fun c ts h => ⟨ts, h, fun _ h => h⟩
  rcases h d hd with ⟨k, rfl⟩ | ⟨k, w, _, rfl⟩
  · exact (afterLets_keeps _ (heed_good l) refl).2
  · obtain ⟨h1, h2⟩ := afterLets_keeps (ws.take k) (heed_good l) refl
    exact keepsAll_step h1 (.addCollection w.1.text) (.inl ⟨_, rfl⟩) h2

/-- Two lets and a read: the process may end with the second collection still empty. -/
example : let s := (runOps Heed.ops Heed.new sampleOps).2
    (crashStates [call "let" [.element (.of (lit "A")), .network (BSet.ofList [.ext (.of (lit "x")) (.of (lit "y"))])],
        call "let" [.element (.of (lit "B")), .quote [.element (.of (lit "read")), .element (.of (lit "A"))]]] s).map
      (fun d => (Heed.ops.collections d, Heed.ops.triples d (lit "B"))) ≠ [] ∧
    ∃ d ∈ crashStates [call "let" [.element (.of (lit "A")), .network (BSet.ofList [.ext (.of (lit "x")) (.of (lit "y"))])],
        call "let" [.element (.of (lit "B")), .quote [.element (.of (lit "read")), .element (.of (lit "A"))]]] s,
      Heed.ops.triples d (lit "A") = .ok (BSet.ofList [⟨lit "x", lit ":", lit "y"⟩]) ∧ Heed.ops.triples d (lit "B") = .ok ∅ := by decide +kernel

/-! ## Running the script again -/

/-- What one `let` does to a world. -/
def letWorld (w : World) (x : Element × Network) : World :=
  apply false (apply false w (.addCollection x.1.text)) (.addTriples x.1.text (x.2.map Graph.entryToTrip))

theorem letWorld_other (w : World) (x : Element × Network) {c : Str} (h : c ≠ x.1.text) : letWorld w x c = w c := by
  unfold letWorld
  cases hw : w x.1.text <;> simp [apply, hw, World.set, h]

theorem letWorld_same (w : World) (x : Element × Network) : letWorld w x x.1.text =
    some (fun t => (∃ p, w x.1.text = some p ∧ p t) ∨ t ∈ x.2.map Graph.entryToTrip) := by
  unfold letWorld
  cases hw : w x.1.text <;> simp [apply, hw, World.set]

theorem letWorlds_eq (ws : List (Element × Network)) : ∀ (w : World) (c : Str), ws.foldl letWorld w c =
    open Classical in
    if w c = none ∧ ∀ x ∈ ws, x.1.text ≠ c then none
    else some (fun t => (∃ p, w c = some p ∧ p t) ∨ ∃ x ∈ ws, x.1.text = c ∧ t ∈ x.2.map Graph.entryToTrip) := by
  induction ws with
  | nil =>
    intro w c
    cases h : w c <;> simp [h]
  | cons x ws ih =>
    intro w c
    rw [List.foldl_cons, ih]
    by_cases e : x.1.text = c
    · subst e
      rw [letWorld_same]
      simp only [List.mem_cons, forall_eq_or_imp, ne_eq, not_true_eq_false, false_and, and_false, if_false, reduceCtorEq,
        Option.some.injEq, exists_eq_left']
      congr 1; funext t
      apply propext
      constructor
      · rintro ((h | h) | ⟨y, h1, h2⟩)
        · exact .inl h
        · exact .inr ⟨x, .inl rfl, rfl, h⟩
        · exact .inr ⟨y, .inr h1, h2⟩
      · rintro (h | ⟨y, rfl | h1, h2⟩)
        · exact .inl (.inl h)
        · exact .inl (.inr h2.2)
        · exact .inr ⟨y, h1, h2⟩
    · rw [letWorld_other w x (fun h => e h.symm)]
      have e2 : (∃ y ∈ ws, y.1.text = c) ↔ ∃ y ∈ x :: ws, y.1.text = c := by simp [e]
      have e3 : ∀ t, (∃ y ∈ ws, y.1.text = c ∧ t ∈ y.2.map Graph.entryToTrip) ↔ ∃ y ∈ x :: ws, y.1.text = c ∧ t ∈ y.2.map Graph.entryToTrip := by
        intro t; simp [e]
      simp only [e3]
      by_cases h : w c = none ∧ ∀ y ∈ ws, y.1.text ≠ c
      · rw [if_pos h, if_pos]
        refine ⟨h.1, fun y hy hyc => ?_⟩
        obtain ⟨z, hz, hzc⟩ := e2.mpr ⟨y, hy, hyc⟩
        exact h.2 z hz hzc
      · rw [if_neg h, if_neg]
        rintro ⟨h1, h2⟩
        exact h ⟨h1, fun y hy => h2 y (List.mem_cons_of_mem _ hy)⟩

/-- A world between `w` and the world after the lets has the same world after the lets. -/
theorem letWorlds_between (ws : List (Element × Network)) (w v : World)
    (h0 : ∀ c, w c ≠ none → v c ≠ none) (h1 : ∀ c, v c ≠ none → w c ≠ none ∨ ∃ x ∈ ws, x.1.text = c)
    (h2 : ∀ c p t, w c = some p → p t → ∃ q, v c = some q ∧ q t)
    (h3 : ∀ c q t, v c = some q → q t → (∃ p, w c = some p ∧ p t) ∨ ∃ x ∈ ws, x.1.text = c ∧ t ∈ x.2.map Graph.entryToTrip) :
    ws.foldl letWorld v = ws.foldl letWorld w := by
  funext c
  rw [letWorlds_eq, letWorlds_eq]
  have e1 : (v c = none ∧ ∀ x ∈ ws, x.1.text ≠ c) ↔ (w c = none ∧ ∀ x ∈ ws, x.1.text ≠ c) := by
    refine ⟨fun ⟨a, b⟩ => ⟨Classical.byContradiction fun h => h0 c h a, b⟩, fun ⟨a, b⟩ => ⟨Classical.byContradiction fun h => ?_, b⟩⟩
    rcases h1 c h with h | ⟨x, hx, hc⟩
    · exact h a
    · exact b x hx hc
  simp only [e1]
  congr 2
  funext t
  apply propext
  constructor
  · rintro (⟨q, hq, ht⟩ | h)
    · exact h3 c q t hq ht
    · exact .inr h
  · rintro (⟨p, hp, ht⟩ | h)
    · exact .inl (h2 c p t hp ht)
    · exact .inr h

/-- One `let` on the LMDB store with room and a legal name. -/
theorem let_heed {s : Heed} {k : Nat} (hg : Heed.Good s) (x : Element × Network) (hk : Heed.lmdbKey x.1.text = true)
    (hr : Heed.Room s (1 + 3 * x.2.toList.length + k)) :
    (letStore (Graph.ops Heed.ops) x.1 x.2 s).1 = .ok emptyNet ∧ Heed.Good (letStore (Graph.ops Heed.ops) x.1 x.2 s).2 ∧
    Heed.Room (letStore (Graph.ops Heed.ops) x.1 x.2 s).2 k ∧
    Heed.worldOf (letStore (Graph.ops Heed.ops) x.1 x.2 s).2 = letWorld (Heed.worldOf s) x := by
  have hle := length_map_le Graph.entryToTrip x.2
  have e1 : (exec Heed.ops s (.addCollection x.1.text)).1 = .ok () := by
    rw [exec_heed]; exact Heed.outcome_addCollection hg true _ (by unfold Heed.Room at *; omega)
  have g1 := Heed.good_exec hg true (.addCollection x.1.text)
  have r1 : Heed.Room (exec Heed.ops s (.addCollection x.1.text)).2 (3 * x.2.toList.length + k) :=
    Heed.room_exec hg (.addCollection x.1.text) _ (by unfold Heed.Room at *; simp only [Op.cost]; omega)
  have w1 := Heed.worldOf_exec hg (.addCollection x.1.text) hk
  rw [e1] at w1
  have hs : (Heed.worldOf (exec Heed.ops s (.addCollection x.1.text)).2 x.1.text).isSome := by
    rw [w1]
    cases h : Heed.worldOf s x.1.text <;> simp [applyEvent, apply, h]
  change Heed.Good (exec Heed.ops s (.addCollection x.1.text)).2 at g1
  rw [letStore_graph]
  rcases h1 : exec Heed.ops s (.addCollection x.1.text) with ⟨a, s1⟩
  rw [h1] at e1 g1 r1 w1 hs
  simp only at e1 g1 r1 w1 hs
  subst e1
  simp only
  have e2 : (exec Heed.ops s1 (.addTriples x.1.text (x.2.map Graph.entryToTrip))).1 = .ok () := by
    rw [exec_heed, Heed.outcome_addTriples g1 true _ _ (by unfold Heed.Room at *; omega), hs]; rfl
  have g2 := Heed.good_exec g1 true (.addTriples x.1.text (x.2.map Graph.entryToTrip))
  change Heed.Good (exec Heed.ops s1 _).2 at g2
  have r2 : Heed.Room (exec Heed.ops s1 (.addTriples x.1.text (x.2.map Graph.entryToTrip))).2 k :=
    Heed.room_exec g1 (.addTriples _ _) _ (by unfold Heed.Room at *; simp only [Op.cost]; omega)
  have w2 := Heed.worldOf_exec g1 (.addTriples x.1.text (x.2.map Graph.entryToTrip)) trivial
  rcases h2 : exec Heed.ops s1 (.addTriples x.1.text (x.2.map Graph.entryToTrip)) with ⟨b, s2⟩
  rw [h2] at e2 g2 r2 w2
  simp only at e2 g2 r2 w2
  subst e2
  refine ⟨rfl, g2, r2, ?_⟩
  rw [w2, w1]; rfl

theorem lets_heed (ws : List (Element × Network)) : ∀ {s : Heed} {k : Nat} (_ : Heed.Good s)
    (_ : ∀ x ∈ ws, Heed.lmdbKey x.1.text = true) (_ : Heed.Room s (letsCost ws + k)) (v : Value),
    runCallsLoop (Graph.ops Heed.ops) common (letCalls ws) v s =
      (.ok (if ws = [] then v else emptyNet), afterLets (Graph.ops Heed.ops) s ws) ∧
    Heed.Good (afterLets (Graph.ops Heed.ops) s ws) ∧ Heed.Room (afterLets (Graph.ops Heed.ops) s ws) k ∧
    Heed.worldOf (afterLets (Graph.ops Heed.ops) s ws) = ws.foldl letWorld (Heed.worldOf s) := by
  induction ws with
  | nil => intro s k hg _ hr v; exact ⟨rfl, hg, by show Heed.Room s k; simpa [letsCost] using hr, rfl⟩
  | cons x ws ih =>
    intro s k hg hk hr v
    obtain ⟨a1, a2, a3, a4⟩ := let_heed (k := letsCost ws + k) hg x (hk x (by simp)) (by
      simp only [letsCost, List.map_cons, List.sum_cons] at hr ⊢; rwa [← Nat.add_assoc])
    obtain ⟨b1, b2, b3, b4⟩ := ih (k := k) a2 (fun y hy => hk y (by simp [hy])) a3 emptyNet
    have e : afterLets (Graph.ops Heed.ops) s (x :: ws) = afterLets (Graph.ops Heed.ops) (letStore (Graph.ops Heed.ops) x.1 x.2 s).2 ws := by
      show afterLets _ (afterLet _ s x) ws = _
      rw [afterLet_eq]
    rw [e]
    refine ⟨?_, b2, b3, by rw [b4, a4]; rfl⟩
    have hcall : runCall (Graph.ops Heed.ops) common (call "let" [.element x.1, .network x.2]) s = letStore (Graph.ops Heed.ops) x.1 x.2 s := by
      rw [← runCalls_single, common_let]
    simp only [letCalls, List.map_cons, runCallsLoop]
    rw [hcall]
    rcases h : letStore (Graph.ops Heed.ops) x.1 x.2 s with ⟨r, s1⟩
    rw [h] at a1 b1
    simp only at a1
    subst a1
    simp only
    rw [show List.map (fun w : Element × Network => call "let" [.element w.1, .network w.2]) ws = letCalls ws from rfl, b1]
    by_cases e : ws = [] <;> simp [e]

theorem lets_ok_state {σ : Type u} (L : LigOps σ) (ws : List (Element × Network)) : ∀ (v r : Value) (t : σ),
    (runCallsLoop L common (letCalls ws) v t).1 = .ok r → (runCallsLoop L common (letCalls ws) v t).2 = afterLets L t ws := by
  induction ws with
  | nil => intro v r t _; rfl
  | cons x ws ih =>
    intro v r t h
    have hcall : runCall L common (call "let" [.element x.1, .network x.2]) t = letStore L x.1 x.2 t := by
      rw [← runCalls_single, common_let]
    have e : afterLets L t (x :: ws) = afterLets L (letStore L x.1 x.2 t).2 ws := by
      show afterLets _ (afterLet _ t x) ws = _
      rw [afterLet_eq]
    rw [e]
    simp only [letCalls, List.map_cons, runCallsLoop] at h ⊢
    rw [hcall] at h ⊢
    rcases h1 : letStore L x.1 x.2 t with ⟨a, t1⟩
    rw [h1] at h
    cases a with
    | ok res => exact ih res r t1 h
    | err m => cases h
    | panic => cases h

theorem letsCost_append (a b : List (Element × Network)) : letsCost (a ++ b) = letsCost a + letsCost b := by
  simp [letsCost]

/-- C70: a script of `let`s that was cut off can simply be run again.  On every reachable store, for any `let`s under legal names with identifiers enough
to run them twice: the script succeeds, and wherever it is cut off, running it again from the start succeeds and the store then shows the same collections
with the same triples as if it had run once without interruption. -/
theorem C70_run_again (l : List Op) (ws : List (Element × Network)) (hk : ∀ x ∈ ws, Heed.lmdbKey x.1.text = true)
    (hr : costOf l + 2 * letsCost ws ≤ 2 ^ 64) :
    let s := (runOps Heed.ops Heed.new l).2
    let once := runCalls (Graph.ops Heed.ops) common (letCalls ws) s
    once.1 = .ok (.network ∅) ∧
    ∀ d ∈ crashStates (letCalls ws) s,
      let again := runCalls (Graph.ops Heed.ops) common (letCalls ws) d
      again.1 = .ok (.network ∅) ∧ SameView Heed.ops again.2 Heed.ops once.2 := by
  intro s once
  have hg : Heed.Good s := heed_good l
  have hroom : Heed.Room s (letsCost ws + letsCost ws) :=
    Heed.room_runOps l Heed.new _ Heed.good_new (by simp only [Heed.Room, Heed.used, Heed.new]; omega)
  obtain ⟨a1, a2, a3, a4⟩ := lets_heed ws hg hk hroom emptyNet
  have ho : once = (.ok emptyNet, afterLets (Graph.ops Heed.ops) s ws) := by
    show runCallsLoop _ _ _ _ _ = _
    rw [a1]; simp
  refine ⟨by rw [ho]; rfl, ?_⟩
  intro d hd again
  have hw : (runCalls (Graph.ops watched) common (letCalls ws) (s, [])).1 = .ok emptyNet := by
    rw [(runCalls_watched (letCalls ws) s []).1]
    show once.1 = _
    rw [ho]
  have hst := lets_ok_state (Graph.ops watched) ws emptyNet emptyNet (s, []) hw
  obtain ⟨_, m, e2, e3⟩ := afterLets_watched ws hg []
  have hdm : d ∈ m := by
    rw [crashStates, show runCalls (Graph.ops watched) common (letCalls ws) (s, []) =
      runCallsLoop (Graph.ops watched) common (letCalls ws) emptyNet (s, []) from rfl, hst, e2] at hd
    simpa using hd
  -- the state found has room for the whole script, and its world lies between the two worlds
  suffices hmid : Heed.Good d ∧ Heed.Room d (letsCost ws) ∧ ws.foldl letWorld (Heed.worldOf d) = ws.foldl letWorld (Heed.worldOf s) by
    obtain ⟨m1, m2, m3⟩ := hmid
    obtain ⟨b1, b2, _, b4⟩ := lets_heed (k := 0) ws m1 hk m2 emptyNet
    have hag : again = (.ok emptyNet, afterLets (Graph.ops Heed.ops) d ws) := by
      show runCallsLoop _ _ _ _ _ = _
      rw [b1]; simp
    refine ⟨by rw [hag]; rfl, ?_⟩
    rw [hag, ho]
    have v1 := heed_agrees b2
    have v2 := heed_agrees a2
    rw [b4, m3, ← a4] at v1
    exact v1.sameView v2
  have part : ∀ k, Heed.Good (afterLets (Graph.ops Heed.ops) s (ws.take k)) ∧
      Heed.Room (afterLets (Graph.ops Heed.ops) s (ws.take k)) (letsCost (ws.drop k) + letsCost ws) ∧
      Heed.worldOf (afterLets (Graph.ops Heed.ops) s (ws.take k)) = (ws.take k).foldl letWorld (Heed.worldOf s) := by
    intro k
    have hcost : letsCost ws = letsCost (ws.take k) + letsCost (ws.drop k) := by
      rw [← letsCost_append, List.take_append_drop]
    obtain ⟨_, c2, c3, c4⟩ := lets_heed (k := letsCost (ws.drop k) + letsCost ws) (ws.take k) hg
      (fun x hx => hk x (List.mem_of_mem_take hx)) (by unfold Heed.Room at *; omega) emptyNet
    exact ⟨c2, c3, c4⟩
  have p0 : ∀ k c, Heed.worldOf s c ≠ none → (ws.take k).foldl letWorld (Heed.worldOf s) c ≠ none := by
    intro k c h
    rw [letWorlds_eq, if_neg (fun h' => h h'.1)]; simp
  have p1 : ∀ k c, (ws.take k).foldl letWorld (Heed.worldOf s) c ≠ none → Heed.worldOf s c ≠ none ∨ ∃ x ∈ ws, x.1.text = c := by
    intro k c h
    rw [letWorlds_eq] at h
    by_cases h' : Heed.worldOf s c = none ∧ ∀ x ∈ ws.take k, x.1.text ≠ c
    · rw [if_pos h'] at h; exact absurd rfl h
    · rcases Classical.em (Heed.worldOf s c = none) with hn | hn
      · refine .inr (Classical.byContradiction fun hx => h' ⟨hn, fun x hx' hc => hx ⟨x, List.mem_of_mem_take hx', hc⟩⟩)
      · exact .inl hn
  have p2 : ∀ k c p t, Heed.worldOf s c = some p → p t → ∃ q, (ws.take k).foldl letWorld (Heed.worldOf s) c = some q ∧ q t := by
    intro k c p t hp ht
    rw [letWorlds_eq, if_neg (by rw [hp]; simp)]
    exact ⟨_, rfl, .inl ⟨p, hp, ht⟩⟩
  have p3 : ∀ k c q t, (ws.take k).foldl letWorld (Heed.worldOf s) c = some q → q t →
      (∃ p, Heed.worldOf s c = some p ∧ p t) ∨ ∃ x ∈ ws, x.1.text = c ∧ t ∈ x.2.map Graph.entryToTrip := by
    intro k c q t hq ht
    rw [letWorlds_eq] at hq
    split at hq
    · cases hq
    · cases hq
      rcases ht with h | ⟨x, hx, h⟩
      · exact .inl h
      · exact .inr ⟨x, List.mem_of_mem_take hx, h⟩
  rcases e3 d hdm with ⟨k, rfl⟩ | ⟨k, x, hx, rfl⟩
  · obtain ⟨c1, c2, c3⟩ := part k
    refine ⟨c1, by unfold Heed.Room at *; omega, ?_⟩
    rw [c3]
    exact letWorlds_between ws _ _ (p0 k) (p1 k) (p2 k) (p3 k)
  · obtain ⟨c1, c2, c3⟩ := part k
    have hxm : x ∈ ws := List.mem_of_getElem? hx
    have hcost : 1 ≤ letsCost (ws.drop k) := by
      have : ws.drop k = x :: ws.drop (k + 1) := by
        obtain ⟨hlt, rfl⟩ := List.getElem?_eq_some_iff.mp hx
        exact List.drop_eq_getElem_cons hlt
      rw [this]; simp only [letsCost, List.map_cons, List.sum_cons]; omega
    have hr1 : Heed.Room (afterLets (Graph.ops Heed.ops) s (ws.take k)) (1 + letsCost ws) := by unfold Heed.Room at *; omega
    have eok : (exec Heed.ops (afterLets (Graph.ops Heed.ops) s (ws.take k)) (.addCollection x.1.text)).1 = .ok () := by
      rw [exec_heed]; exact Heed.outcome_addCollection c1 true _ (by unfold Heed.Room at *; omega)
    have hwd := Heed.worldOf_exec c1 (.addCollection x.1.text) (hk x hxm)
    rw [eok, c3] at hwd
    refine ⟨Heed.good_exec c1 true _, Heed.room_exec c1 (.addCollection _) _ hr1, ?_⟩
    rw [hwd]
    generalize hv : (ws.take k).foldl letWorld (Heed.worldOf s) = v at *
    have hcase : ∀ c, applyEvent false v (.addCollection x.1.text, .ok ()) c = v c ∨
        (c = x.1.text ∧ v c = none ∧ applyEvent false v (.addCollection x.1.text, .ok ()) c = some fun _ => False) := by
      intro c
      simp only [applyEvent, apply]
      cases h : v x.1.text with
      | some p => exact .inl (by simp)
      | none =>
        by_cases e : c = x.1.text
        · subst e; exact .inr ⟨rfl, h, by simp [World.set]⟩
        · exact .inl (by simp [World.set, e])
    refine letWorlds_between ws _ _ ?_ ?_ ?_ ?_
    · intro c hc
      rcases hcase c with h | ⟨_, _, h⟩
      · rw [h, ← hv]; exact p0 k c hc
      · rw [h]; simp
    · intro c hc
      rcases hcase c with h | ⟨rfl, _, _⟩
      · rw [h, ← hv] at hc; exact p1 k c hc
      · exact .inr ⟨x, hxm, rfl⟩
    · intro c p t hp ht
      obtain ⟨q, hq, hqt⟩ := p2 k c p t hp ht
      rw [hv] at hq
      rcases hcase c with h | ⟨_, h, _⟩
      · exact ⟨q, by rw [h]; exact hq, hqt⟩
      · rw [hq] at h; cases h
    · intro c q t hq ht
      rcases hcase c with h | ⟨_, _, h⟩
      · rw [h, ← hv] at hq; exact p3 k c q t hq ht
      · rw [h] at hq; cases hq; exact ht.elim

/-- Three lets, two of the same name, satisfy the hypotheses after `sampleOps`, and there are crash states that differ from the beginning and the end. -/
def threeLets : List (Element × Network) :=
  [(.of (lit "A"), BSet.ofList [.ext (.of (lit "x")) (.of (lit "y"))]), (.of (lit "B"), BSet.ofList [.ext (.of (lit "u")) (.of (lit "v"))]),
   (.of (lit "A"), BSet.ofList [.role (.of (lit "x")) (.of (lit "y")) (.of (lit "r"))])]

example : (∀ x ∈ threeLets, Heed.lmdbKey x.1.text = true) ∧ costOf sampleOps + 2 * letsCost threeLets ≤ 2 ^ 64 ∧
    (let s := (runOps Heed.ops Heed.new sampleOps).2
     ∃ d ∈ crashStates (letCalls threeLets) s, d ≠ s ∧ d ≠ (runCalls (Graph.ops Heed.ops) common (letCalls threeLets) s).2) := by
  refine ⟨?_, by decide +kernel, by decide +kernel⟩
  intro x hx
  simp only [threeLets, List.mem_cons, List.not_mem_nil, or_false] at hx
  rcases hx with rfl | rfl | rfl <;> decide

end Props
end Verif
