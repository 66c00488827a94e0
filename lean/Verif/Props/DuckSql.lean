import Verif.Proofs.DuckSql
import Verif.Props.Again
/-!
# C88: what SQL leaves open does not show
-/
namespace Verif
namespace Props
open Spec Eval Steps DuckSql

theorem duck_reads {s : Duck} {r : Res (BSet Trip)} {c : Str} (h : Duck.Inv s) (hr : Reads s c r) : r = Duck.ops.triples s c := by
  obtain ⟨t, ht, rfl⟩ := hr
  exact duck_refines.read_congr h (inv_rearranged h ht) (by rw [world_rearranged h ht])

theorem duck_lists {s : Duck} {names : List Str} (hr : Lists s names) : ∃ l, Duck.ops.collections s = .ok l ∧ names.Perm l := by
  obtain ⟨t, ht, e⟩ := hr
  simp only [Duck.collections, Res.ok.injEq] at e
  subst e
  exact ⟨_, rfl, ht.colls.map _⟩

/-- C88: whatever order DuckDB keeps and returns rows in, whatever identifiers its sequence skips, and whichever statements fail: after any
history the listing names each collection of the plain map (updated by the acknowledged operations) exactly once, in some order, and
reading gives exactly the triples it holds there (none, if it is not there). -/
theorem C88_any_order (mayFail : Bool) (l : List Event) (s : Duck) (h : History mayFail Duck.new l s) :
    (∀ names, Lists s names → names.Nodup ∧ ∀ c, c ∈ names ↔ (worldAfter false l c).isSome) ∧
    (∀ c r, Reads s c r → ∃ ts, r = .ok ts ∧ ∀ t, t ∈ ts ↔ ∃ p, worldAfter false l c = some p ∧ p t) := by
  obtain ⟨hi, hw⟩ := history_new h
  rw [← hw]
  refine ⟨fun names hn => ?_, fun c r hr => ?_⟩
  · obtain ⟨k, hk, hp⟩ := duck_lists hn
    obtain ⟨k', e, hd, hm⟩ := (Duck.agrees hi).1
    rw [hk] at e; cases e
    exact ⟨hp.nodup_iff.mpr hd, fun c => by rw [hp.mem_iff, hm]⟩
  · obtain ⟨ts, e, ht⟩ := Duck.triples_spec hi c
    exact ⟨ts, by rw [duck_reads hi hr]; exact e, ht⟩

theorem history_det {l : List Event} {s s' : Duck} (hh : History false s l s') : Duck.Inv s → ∀ d, Duck.Inv d → Duck.world d = Duck.world s →
    l = (runOps Duck.ops d (l.map Prod.fst)).1 ∧ Duck.world (runOps Duck.ops d (l.map Prod.fst)).2 = Duck.world s' := by
  induction hh with
  | nil => intro _ d _ hw; exact ⟨rfl, hw⟩
  | @cons s s1 s' op r l hs _ ih =>
    intro hi d hd hw
    obtain ⟨h1, h2, h3⟩ := step_spec hi hs
    have h3 : DuckOutcome (Duck.world s) op r := by rcases h3 with h3 | ⟨h3, _⟩; exact h3; cases h3
    have e : (exec Duck.ops d op).1 = r := by
      have := exec_outcome hd op
      rw [hw] at this
      exact outcome_det this h3
    obtain ⟨k1, k2⟩ := ih h1 (exec Duck.ops d op).2 (duck_refines.inv d op hd) (by rw [duck_refines.step d op hd trivial, e, hw, h2])
    simp only [List.map_cons, runOps]
    rw [e]
    exact ⟨by rw [← k1], k2⟩

/-- C88: if no statement fails, the outcomes of a history are determined, and so is everything read afterwards; only the order of the
listing is open. -/
theorem C88_deterministic (l : List Event) (s : Duck) (h : History false Duck.new l s) :
    l = (runOps Duck.ops Duck.new (l.map Prod.fst)).1 ∧
    (∀ c r, Reads s c r → r = Duck.ops.triples (runOps Duck.ops Duck.new (l.map Prod.fst)).2 c) ∧
    (∀ names, Lists s names → ∃ k, Duck.ops.collections (runOps Duck.ops Duck.new (l.map Prod.fst)).2 = .ok k ∧ names.Perm k) := by
  obtain ⟨h1, h2⟩ := history_det h Duck.inv_new _ Duck.inv_new rfl
  obtain ⟨hi, hw⟩ := history_new h
  have hd := duck_inv (l.map Prod.fst)
  refine ⟨h1, fun c r hr => ?_, fun names hn => ?_⟩
  · rw [duck_reads hi hr]
    exact duck_refines.read_congr hd hi (by rw [h2])
  · obtain ⟨k, hk, hp⟩ := duck_lists hn
    obtain ⟨a, ea, hda, hma⟩ := (Duck.agrees hi).1
    obtain ⟨b, eb, hdb, hmb⟩ := (Duck.agrees hd).1
    rw [hk] at ea; cases ea
    refine ⟨b, eb, hp.trans ?_⟩
    refine (List.perm_ext_iff_of_nodup hda hdb).mpr fun c => ?_
    rw [hma, hmb, h2]

/-- C88: the history as the simple model runs it is one of the possible ones. -/
theorem C88_possible (l : List Op) : History false Duck.new (runOps Duck.ops Duck.new l).1 (runOps Duck.ops Duck.new l).2 :=
  history_exec l _ Duck.inv_new

/-- C88: an operation happens entirely or not at all, whichever of its statements fails (or its commit): it ends as it would have
without failure, or it panics; and if it does not end with `Ok`, everything read afterwards is as before. -/
theorem C88_all_or_nothing (mayFail : Bool) (l : List Event) (s s' : Duck) (op : Op) (r : Res Unit) (h : History mayFail Duck.new l s)
    (hs : Step mayFail s op r s') :
    (DuckOutcome (worldAfter false l) op r ∨ (mayFail = true ∧ r = .panic)) ∧
    (r ≠ .ok () → (∀ c x x', Reads s c x → Reads s' c x' → x = x') ∧ ∀ a b, Lists s a → Lists s' b → a.Perm b) := by
  obtain ⟨hi, hw⟩ := history_new h
  obtain ⟨h1, h2, h3⟩ := step_spec hi hs
  refine ⟨by rw [← hw]; exact h3, fun hr => ?_⟩
  have e : Duck.world s' = Duck.world s := by
    rw [h2]
    unfold applyEvent
    cases r with
    | ok u => exact absurd rfl hr
    | err m => rfl
    | panic => rfl
  refine ⟨fun c x x' hx hx' => ?_, fun a b ha hb => ?_⟩
  · rw [duck_reads hi hx, duck_reads h1 hx']
    exact (duck_refines.read_congr hi h1 (by rw [e])).symm
  · obtain ⟨k, hk, hp⟩ := duck_lists ha
    obtain ⟨k', hk', hp'⟩ := duck_lists hb
    obtain ⟨y, ey, hdy, hmy⟩ := (Duck.agrees hi).1
    obtain ⟨z, ez, hdz, hmz⟩ := (Duck.agrees h1).1
    rw [hk] at ey; cases ey
    rw [hk'] at ez; cases ez
    refine hp.trans (.trans ?_ hp'.symm)
    exact (List.perm_ext_iff_of_nodup hdy hdz).mpr fun c => by rw [hmy, hmz, e]

/-! ## Scripts -/

/-- Programs that stop when the store panics. -/
inductive Stops : Prog → Prop where
  | ret (r : Res Value) : Stops (.ret r)
  | ask {q : Ask} {k : Answer → Prog} : k (.network .panic) = .ret .panic ∨ Writing q → k (.unit .panic) = .ret .panic ∨ Reading q →
      (∀ a, (Reading q → ∃ r, a = .network r) → (Writing q → ∃ r : Res Unit, a = .unit r ∧ (r = .ok () ∨ r = .panic)) → Stops (k a)) → Stops (.ask q k)

theorem stops_of_tame {R W : Str → Prop} {p : Prog} (h : Tame R W p) : Stops p := by
  induction h with
  | ret r => exact .ret r
  | entries _ h2 _ ih =>
    refine .ask (.inl h2) (.inr trivial) fun a ha _ => ?_
    obtain ⟨r, rfl⟩ := ha trivial
    exact ih r
  | filter _ h2 _ ih =>
    refine .ask (.inl h2) (.inr trivial) fun a ha _ => ?_
    obtain ⟨r, rfl⟩ := ha trivial
    exact ih r
  | lets _ hf _ ih =>
    simp only [letP, Prog.andThen]
    refine .ask (.inr trivial) (.inl hf) fun a _ ha => ?_
    obtain ⟨r, rfl, rfl | rfl⟩ := ha trivial
    · simp only [Prog.andThen]
      refine .ask (.inr trivial) (.inl hf) fun a _ ha => ?_
      obtain ⟨r, rfl, rfl | rfl⟩ := ha trivial
      · exact ih
      · simp only [Prog.andThen, hf]; exact .ret _
    · simp only [Prog.andThen, hf]; exact .ret _

theorem performs_spec {mf : Bool} {s s' : Duck} {q : Ask} {a : Answer} (hi : Duck.Inv s) (h : Performs mf s q a s') {d : Duck} (hd : Duck.Inv d)
    (hw : Duck.world d = Duck.world s) :
    Duck.Inv s' ∧ ((a = (perform (Graph.ops Duck.ops) d q).1 ∧ Duck.world (perform (Graph.ops Duck.ops) d q).2 = Duck.world s') ∨
      (mf = true ∧ Duck.world s' = Duck.world s ∧ ((Reading q ∧ a = .network .panic) ∨ (Writing q ∧ a = .unit .panic)))) := by
  have wr : ∀ (op : Op) (r : Res Unit), Step mf s op r s' →
      Duck.Inv s' ∧ ((r = (exec Duck.ops d op).1 ∧ Duck.world (exec Duck.ops d op).2 = Duck.world s') ∨
        (mf = true ∧ Duck.world s' = Duck.world s ∧ r = .panic)) := by
    intro op r hs
    obtain ⟨h1, h2, h3⟩ := step_spec hi hs
    refine ⟨h1, ?_⟩
    rcases h3 with h3 | ⟨h3, rfl⟩
    · have e := exec_outcome hd op
      rw [hw] at e
      have e := outcome_det h3 e
      refine .inl ⟨e, ?_⟩
      rw [duck_refines.step d op hd trivial, ← e, hw, h2]
    · exact .inr ⟨h3, h2, rfl⟩
  cases q with
  | entries c =>
    obtain ⟨rfl, ⟨hm, rfl⟩ | ⟨r, hr, rfl⟩⟩ := h
    · exact ⟨hi, .inr ⟨hm, rfl, .inl ⟨trivial, rfl⟩⟩⟩
    · refine ⟨hi, .inl ⟨?_, hw⟩⟩
      rw [duck_reads hi hr]
      show _ = Answer.network ((Duck.ops.triples d c.text).map _)
      rw [duck_refines.read_congr (c := c.text) hi hd (by rw [hw])]
  | filter c p =>
    obtain ⟨rfl, rfl⟩ := h
    exact ⟨hi, .inl ⟨rfl, hw⟩⟩
  | addCollection c =>
    obtain ⟨r, hs, rfl⟩ := h
    obtain ⟨h1, ⟨rfl, h2⟩ | ⟨hm, h2, rfl⟩⟩ := wr _ r hs
    · exact ⟨h1, .inl ⟨rfl, h2⟩⟩
    · exact ⟨h1, .inr ⟨hm, h2, .inr ⟨trivial, rfl⟩⟩⟩
  | addEntries c es =>
    obtain ⟨r, hs, rfl⟩ := h
    obtain ⟨h1, ⟨rfl, h2⟩ | ⟨hm, h2, rfl⟩⟩ := wr _ r hs
    · exact ⟨h1, .inl ⟨rfl, h2⟩⟩
    · exact ⟨h1, .inr ⟨hm, h2, .inr ⟨trivial, rfl⟩⟩⟩

theorem perform_inv {d : Duck} (hd : Duck.Inv d) (q : Ask) : Duck.Inv (perform (Graph.ops Duck.ops) d q).2 := by
  rw [perform_state]
  cases opOf q with
  | none => exact hd
  | some op => exact duck_refines.inv d op hd

theorem errTodo_cases (r : Res Unit) : r.errTodo = .ok () ∨ r.errTodo = .panic := by
  cases r <;> simp [Res.errTodo]

theorem perform_kind (d : Duck) (q : Ask) : (Reading q → ∃ r, (perform (Graph.ops Duck.ops) d q).1 = .network r) ∧
    (Writing q → ∃ r : Res Unit, (perform (Graph.ops Duck.ops) d q).1 = .unit r ∧ (r = .ok () ∨ r = .panic)) := by
  cases q with
  | entries c => exact ⟨fun _ => ⟨_, rfl⟩, fun h => h.elim⟩
  | filter c p => exact ⟨fun _ => ⟨_, rfl⟩, fun h => h.elim⟩
  | addCollection c => exact ⟨fun h => h.elim, fun _ => ⟨_, rfl, errTodo_cases _⟩⟩
  | addEntries c es => exact ⟨fun h => h.elim, fun _ => ⟨_, rfl, errTodo_cases _⟩⟩

theorem not_both {q : Ask} (h : Reading q) : ¬ Writing q := by cases q <;> simp_all [Reading, Writing]

theorem runs_spec {mf : Bool} {p : Prog} {s s' : Duck} {r : Res Value} (h : Runs mf p s r s') : Stops p → Duck.Inv s → ∀ d, Duck.Inv d →
    Duck.world d = Duck.world s → Duck.Inv s' ∧
    ((r = (p.run (Graph.ops Duck.ops) d).1 ∧ Duck.world (p.run (Graph.ops Duck.ops) d).2 = Duck.world s') ∨
     (mf = true ∧ r = .panic ∧ ∃ i, Duck.world (afterAsks (Graph.ops Duck.ops) i p d) = Duck.world s')) := by
  induction h with
  | ret => intro _ hi d hd hw; exact ⟨hi, .inl ⟨rfl, hw⟩⟩
  | @ask q k s s1 s' a r hp hr ih =>
    intro hst hi d hd hw
    cases hst with
    | ask hn hu hk =>
      obtain ⟨h1, h2⟩ := performs_spec hi hp hd hw
      rcases h2 with ⟨rfl, h2⟩ | ⟨hm, h2, h3⟩
      · obtain ⟨k1, k2⟩ := perform_kind d q
        obtain ⟨hi', h⟩ := ih (hk _ k1 k2) h1 _ (perform_inv hd q) h2
        refine ⟨hi', ?_⟩
        rcases h with h | ⟨hm, hr, i, hi⟩
        · exact .inl h
        · exact .inr ⟨hm, hr, i + 1, hi⟩
      · have e : k a = .ret .panic := by
          rcases h3 with ⟨hq, rfl⟩ | ⟨hq, rfl⟩
          · rcases hn with hn | hn
            · exact hn
            · exact absurd hn (not_both hq)
          · rcases hu with hu | hu
            · exact hu
            · exact absurd hq (not_both hu)
        rw [e] at hr
        cases hr
        exact ⟨h1, .inr ⟨hm, rfl, 0, by rw [h2]; exact hw⟩⟩

theorem sameView_of_world {s t : Duck} (hs : Duck.Inv s) (ht : Duck.Inv t) (h : Duck.world t = Duck.world s) : SameView Duck.ops s Duck.ops t := by
  have a := Duck.agrees hs
  have b := Duck.agrees ht
  rw [h] at b
  exact a.sameView b

theorem afterAsks_inv (p : Prog) (d : Duck) (hd : Duck.Inv d) (i : Nat) : Duck.Inv (afterAsks (Graph.ops Duck.ops) i p d) :=
  afterAsks_keeps Duck.ops (P := Duck.Inv) (Q := fun _ => True) (fun s _ op h _ _ => duck_refines.inv s op h) p d hd (fun _ _ => trivial) i

/-- C88: a script gives the same result, and leaves the same contents, however DuckDB arranges and returns rows and hands out identifiers.
If statements may fail, the only other possibility is that it panics, leaving what the script's first few store operations would have left. -/
theorem C88_scripts (mayFail : Bool) (l : List Event) (s s' : Duck) (calls : List Call) (r : Res Value) (h : History mayFail Duck.new l s)
    (hr : Runs mayFail (callsP calls) s r s') :
    let once := runCalls (Graph.ops Duck.ops) common calls s
    (r = once.1 ∧ SameView Duck.ops once.2 Duck.ops s') ∨
    (mayFail = true ∧ r = .panic ∧ ∃ i, SameView Duck.ops (afterAsks (Graph.ops Duck.ops) i (callsP calls) s) Duck.ops s') := by
  intro once
  obtain ⟨hi, _⟩ := history_new h
  obtain ⟨h1, h2⟩ := runs_spec hr (stops_of_tame (tame_callsP calls)) hi s hi rfl
  have hfin : Duck.Inv ((callsP calls).run (Graph.ops Duck.ops) s).2 := by
    obtain ⟨i, e⟩ := afterAsks_end (Graph.ops Duck.ops) (callsP calls) s
    rw [← e]; exact afterAsks_inv _ s hi i
  rcases h2 with ⟨rfl, h2⟩ | ⟨hm, rfl, i, h2⟩
  · rw [run_callsP] at hfin h2 ⊢
    exact .inl ⟨rfl, sameView_of_world hfin h1 h2.symm⟩
  · exact .inr ⟨hm, rfl, i, sameView_of_world (afterAsks_inv _ s hi i) h1 h2.symm⟩

theorem runs_exec (p : Prog) : ∀ s : Duck, Duck.Inv s → Runs false p s (p.run (Graph.ops Duck.ops) s).1 (p.run (Graph.ops Duck.ops) s).2 := by
  induction p with
  | ret r => intro s _; exact .ret
  | ask q k ih =>
    intro s hi
    refine .ask ?_ (ih _ _ (perform_inv hi q))
    cases q with
    | entries c => exact ⟨rfl, .inr ⟨_, ⟨s, .refl s, rfl⟩, rfl⟩⟩
    | filter c p => exact ⟨rfl, rfl⟩
    | addCollection c => exact ⟨_, step_exec s _ hi, rfl⟩
    | addEntries c es => exact ⟨_, step_exec s _ hi, rfl⟩

/-! ## Examples -/

/-- Two collections, with a gap in the identifiers, the later row first. -/
def gappy : Duck := ⟨200, [], [(199, lit "b"), (7, lit "a")], []⟩

/-- What led there, and an addition that failed at its third statement. -/
def gappyEvents : List Event :=
  [(.addCollection (lit "a"), .ok ()), (.addCollection (lit "b"), .ok ()),
   (.addTriples (lit "a") (BSet.ofList [⟨lit "x", lit "y", lit "z"⟩]), .panic)]

theorem gappy_history : History true Duck.new gappyEvents gappy := by
  refine .cons (s1 := ⟨8, [], [(7, lit "a")], []⟩) ?_ (.cons (s1 := gappy) ?_ (.cons (s1 := gappy) ?_ .nil))
  · refine ⟨some _, .next (t := ⟨7, [], [], []⟩) (u := ⟨8, [], [(7, lit "a")], []⟩) ⟨by decide, .refl _, .refl _, .refl _⟩ (by decide +kernel)
      (.commit (.refl _)), rfl, rfl⟩
  · refine ⟨some gappy, .next (t := ⟨199, [], [(7, lit "a")], []⟩) (u := ⟨200, [], [(7, lit "a"), (199, lit "b")], []⟩)
      ⟨by decide, .refl _, .refl _, .refl _⟩ (by decide +kernel) (.commit ⟨by decide, .refl _, .swap _ _ _, .refl _⟩), rfl, rfl⟩
  · refine .inr ⟨gappy, .refl _, ?_⟩
    rw [show Duck.idOf gappy.colls (lit "a") = some 7 by decide +kernel]
    refine ⟨none, ?_, rfl, .refl _⟩
    exact .next (.refl _) rfl (.next (.refl _) rfl (.failed rfl))

example := C88_any_order true gappyEvents gappy gappy_history
example : Lists gappy [lit "b", lit "a"] ∧ Lists gappy [lit "a", lit "b"] :=
  ⟨⟨gappy, .refl _, rfl⟩, ⟨⟨200, [], [(7, lit "a"), (199, lit "b")], []⟩, ⟨by decide, .refl _, .swap _ _ _, .refl _⟩, rfl⟩⟩

example := C88_deterministic _ _ (C88_possible sampleOps)

example := C88_all_or_nothing true gappyEvents gappy gappy (.addCollection (lit "c")) .panic gappy_history ⟨none, .failed rfl, rfl, .refl _⟩

example := C88_scripts false _ _ _ copyTwice _ (C88_possible beforeCopy)
  (runs_exec (callsP copyTwice) _ (duck_inv beforeCopy))

/-- The script runs through. -/
example : (runCalls (Graph.ops Duck.ops) common copyTwice (runOps Duck.ops Duck.new beforeCopy).2).1 ≠ .panic := by decide +kernel

end Props
end Verif
