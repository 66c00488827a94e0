import Verif.Spec.Reach
import Verif.Props.Apart
import Verif.Props.ScriptCrash
/-!
# C101: what a session can turn a store into
-/
namespace Verif
namespace Props
open Spec Eval

namespace Reach
open Apart

/-- What every `let` keeps, every script keeps. -/
theorem scripts_keep (L : LigOps σ) (P : σ → Prop) (hP : ∀ s name n, P s → P (letStore L name n s).2) :
    ∀ (scripts : List Str) (s : σ), P s → P (afterScripts L scripts s)
  | [], _, h => h
  | script :: rest, s, h => by
    refine scripts_keep L P hP rest _ ?_
    by_cases hm : ∃ calls, Means script calls
    · obtain ⟨calls, hm⟩ := hm
      rw [run_means _ _ hm]
      exact C60_invariants L P calls (fun s name n _ h => by rw [common_let]; exact hP s name n h) s h
    · rw [(run_no_calls _ hm s).1]; exact h

/-- The pairs of a listing as lets. -/
def asLets (cs : List (Str × BSet Trip)) : List (Element × Network) := cs.map fun p => (.of p.1, p.2.map Graph.tripToEntry)

theorem letCalls_asLets (cs : List (Str × BSet Trip)) : letCalls (asLets cs) = cs.map letCall := by
  simp only [letCalls, asLets, List.map_map]
  rfl

theorem letsCost_asLets (cs : List (Str × BSet Trip)) : letsCost (asLets cs) ≤ (cs.map fun p => 1 + 3 * p.2.toList.length).sum := by
  induction cs with
  | nil => exact Nat.le_refl _
  | cons p cs ih =>
    have := length_map_le Graph.tripToEntry p.2
    simp only [letsCost, asLets, List.map_cons, List.sum_cons] at ih ⊢
    omega

theorem lists_world {U : TripsOps τ} {u : τ} {w : World} (hA : Agrees U u w) {cs : List (Str × BSet Trip)} (hl : Lists U u cs) :
    (∀ p ∈ cs, w p.1 = some fun t => t ∈ p.2) ∧ ∀ c, c ∉ cs.map Prod.fst → w c = none := by
  obtain ⟨⟨l, h1, h2, h3⟩, h4⟩ := hA
  have e : l = cs.map Prod.fst := by rw [hl.1] at h1; injection h1 with h1; exact h1.symm
  subst e
  constructor
  · intro p hp
    obtain ⟨q, hq⟩ := Option.isSome_iff_exists.mp ((h3 p.1).mp (List.mem_map_of_mem hp))
    obtain ⟨ts, e1, e2⟩ := h4 _ _ hq
    rw [hl.2.2 p hp] at e1
    cases e1
    rw [hq]
    exact congrArg some (funext fun t => propext (e2 t).symm)
  · intro c hc
    cases e : w c with
    | none => rfl
    | some p => exact absurd ((h3 c).mpr (by rw [e]; rfl)) hc

/-- Lets that add what is missing make the world they come from. -/
theorem world_lets {w0 w : World} {cs : List (Str × BSet Trip)} (ha : ∀ c p, w0 c = some p → ∃ q, w c = some q ∧ ∀ t, p t → q t)
    (hb : ∀ c, w c ≠ none → c ∈ cs.map Prod.fst ∨ w0 c = w c) (hc : ∀ p ∈ cs, w p.1 = some fun t => t ∈ p.2) :
    (asLets cs).foldl letWorld w0 = w := by
  funext c
  rw [letWorlds_eq]
  cases e : w c with
  | none =>
    refine if_pos ⟨?_, ?_⟩
    · cases e0 : w0 c with
      | none => rfl
      | some p =>
        obtain ⟨q, hq, _⟩ := ha c p e0
        rw [e] at hq; cases hq
    · intro x hx h
      obtain ⟨p, hp, rfl⟩ := List.mem_map.mp hx
      have := hc p hp
      rw [show p.1 = c from h, e] at this
      cases this
  | some q =>
    rw [if_neg]
    · refine congrArg some (funext fun t => propext ⟨?_, fun ht => ?_⟩)
      · rintro (⟨p, h0, ht⟩ | ⟨x, hx, h, ht⟩)
        · obtain ⟨q', hq', hs⟩ := ha c p h0
          rw [e] at hq'; cases hq'
          exact hs t ht
        · obtain ⟨p, hp, rfl⟩ := List.mem_map.mp hx
          have := hc p hp
          rw [show p.1 = c from h, e] at this
          cases this
          simp only [map_back] at ht
          exact ht
      · rcases hb c (by rw [e]; simp) with h | h
        · obtain ⟨p, hp, rfl⟩ := List.mem_map.mp h
          have := hc p hp
          rw [e] at this
          cases this
          exact .inr ⟨_, List.mem_map_of_mem hp, rfl, by simpa only [map_back] using ht⟩
        · exact .inl ⟨q, by rw [h, e], ht⟩
    · rintro ⟨h0, hx⟩
      rcases hb c (by rw [e]; simp) with h | h
      · obtain ⟨p, hp, rfl⟩ := List.mem_map.mp h
        exact hx _ (List.mem_map_of_mem hp) rfl
      · rw [h0, e] at h; cases h

/-- One `let` on the DuckDB store. -/
theorem let_duck {s : Duck} (hs : Duck.Inv s) (name : Element) (n : Network) :
    Duck.Inv (letStore (Graph.ops Duck.ops) name n s).2 ∧
    ((Duck.world s name.text).isSome → Duck.world (letStore (Graph.ops Duck.ops) name n s).2 = Duck.world s) ∧
    (Duck.world s name.text = none → (letStore (Graph.ops Duck.ops) name n s).1 = .ok emptyNet ∧
      Duck.world (letStore (Graph.ops Duck.ops) name n s).2 = letWorld (Duck.world s) (name, n)) := by
  obtain ⟨h1, h2, h3⟩ := Duck.exec_spec hs (.addCollection name.text)
  have ha : (Graph.ops Duck.ops).addCollection s name =
      ((exec Duck.ops s (.addCollection name.text)).1.errTodo, (exec Duck.ops s (.addCollection name.text)).2) := rfl
  cases hw : Duck.world s name.text with
  | some p =>
    simp only [hw, Option.isSome_some, if_true] at h3
    have e : letStore (Graph.ops Duck.ops) name n s = (.panic, (exec Duck.ops s (.addCollection name.text)).2) := by
      simp [letStore, ha, h3, Res.errTodo]
    rw [h3] at h2
    rw [e]
    exact ⟨h1, fun _ => h2, nofun⟩
  | none =>
    simp only [hw, Option.isSome_none, Bool.false_eq_true, if_false] at h3
    rw [h3] at h2
    obtain ⟨k1, k2, k3⟩ := Duck.exec_spec h1 (.addTriples name.text (n.map Graph.entryToTrip))
    have hw' : (Duck.world (exec Duck.ops s (.addCollection name.text)).2 name.text).isSome = true := by
      rw [h2]; simp [applyEvent, apply, hw, World.set]
    simp only [hw', if_true] at k3
    rw [k3] at k2
    have hb : (Graph.ops Duck.ops).addEntries (exec Duck.ops s (.addCollection name.text)).2 name n =
        ((exec Duck.ops (exec Duck.ops s (.addCollection name.text)).2 (.addTriples name.text (n.map Graph.entryToTrip))).1.errTodo,
         (exec Duck.ops (exec Duck.ops s (.addCollection name.text)).2 (.addTriples name.text (n.map Graph.entryToTrip))).2, n) := rfl
    have e : letStore (Graph.ops Duck.ops) name n s = (.ok emptyNet,
        (exec Duck.ops (exec Duck.ops s (.addCollection name.text)).2 (.addTriples name.text (n.map Graph.entryToTrip))).2) := by
      simp [letStore, ha, h3, hb, k3, Res.errTodo]
    rw [e]
    refine ⟨k1, nofun, fun _ => ⟨rfl, ?_⟩⟩
    rw [k2, h2]
    rfl

theorem lets_duck : ∀ (cs : List (Str × BSet Trip)) {s : Duck} (_ : Duck.Inv s) (_ : (cs.map Prod.fst).Nodup)
    (_ : ∀ p ∈ cs, Duck.world s p.1 = none) (v : Value) (_ : v = .network ∅),
    ∃ s', runCallsLoop (Graph.ops Duck.ops) common (cs.map letCall) v s = (.ok (.network ∅), s') ∧ Duck.Inv s' ∧
      Duck.world s' = (asLets cs).foldl letWorld (Duck.world s)
  | [], s, hs, _, _, v, hv => ⟨s, by rw [hv]; rfl, hs, rfl⟩
  | p :: cs, s, hs, hn, hw, v, hv => by
    simp only [List.map_cons, List.nodup_cons] at hn
    obtain ⟨a1, _, a2⟩ := let_duck hs (.of p.1) (p.2.map Graph.tripToEntry)
    obtain ⟨a2, a3⟩ := a2 (hw p List.mem_cons_self)
    obtain ⟨s', b1, b2, b3⟩ := lets_duck cs a1 hn.2 (fun q hq => by
      rw [a3, letWorld_other _ _ (show q.1 ≠ p.1 from fun e => hn.1 (e ▸ List.mem_map_of_mem hq))]
      exact hw q (List.mem_cons_of_mem _ hq)) emptyNet rfl
    refine ⟨s', ?_, b2, by rw [b3, a3]; rfl⟩
    rw [List.map_cons, loop_let]
    generalize letStore (Graph.ops Duck.ops) (.of p.1) (p.2.map Graph.tripToEntry) s = x at a1 a2 a3 b1
    obtain ⟨r, s1⟩ := x
    simp only at a2
    subst a2
    exact b1

/-- What is in the DuckDB store stays as it is. -/
theorem duck_keeps (scripts : List Str) {s : Duck} (hs : Duck.Inv s) :
    Duck.Inv (afterScripts (Graph.ops Duck.ops) scripts s) ∧
    ∀ c p, Duck.world s c = some p → Duck.world (afterScripts (Graph.ops Duck.ops) scripts s) c = some p := by
  refine scripts_keep (Graph.ops Duck.ops) (fun t => Duck.Inv t ∧ ∀ c p, Duck.world s c = some p → Duck.world t c = some p) ?_ scripts s
    ⟨hs, fun _ _ h => h⟩
  rintro t name n ⟨hi, hk⟩
  obtain ⟨a1, a2, a3⟩ := let_duck hi name n
  refine ⟨a1, fun c p h => ?_⟩
  cases hw : Duck.world t name.text with
  | some q => rw [a2 (by rw [hw]; rfl)]; exact hk c p h
  | none =>
    rw [(a3 hw).2, letWorld_other _ _ (fun e => ?_)]
    · exact hk c p h
    · have := hk c p h
      rw [e, hw] at this
      cases this

/-- What is in the LMDB store stays in it. -/
theorem heed_keeps (scripts : List Str) {s : Heed} (hs : Heed.Good s) :
    Heed.Good (afterScripts (Graph.ops Heed.ops) scripts s) ∧
    ∀ c p, Heed.worldOf s c = some p → ∃ q, Heed.worldOf (afterScripts (Graph.ops Heed.ops) scripts s) c = some q ∧ ∀ t, p t → q t := by
  refine scripts_keep (Graph.ops Heed.ops)
    (fun t => Heed.Good t ∧ ∀ c p, Heed.worldOf s c = some p → ∃ q, Heed.worldOf t c = some q ∧ ∀ x, p x → q x) ?_ scripts s
    ⟨hs, fun _ p h => ⟨p, h, fun _ h => h⟩⟩
  intro t name n h
  rw [show (letStore (Graph.ops Heed.ops) name n t).2 =
    (runCalls (Graph.ops Heed.ops) common [call "let" [.element name, .network n]] t).2 from by rw [common_let]]
  refine let_graph_state Heed.ops
    (fun t => Heed.Good t ∧ ∀ c p, Heed.worldOf s c = some p → ∃ q, Heed.worldOf t c = some q ∧ ∀ x, p x → q x) name n ?_ ?_ t h
  · rintro t ⟨hi, hk⟩
    refine ⟨heed_refines.inv _ _ hi, fun c p hp => ?_⟩
    obtain ⟨q, h1, h2⟩ := hk c p hp
    by_cases e : c = name.text
    · subst e
      rw [heed_addCollection_listed hi _ ((heed_listed hi _).mpr (by rw [h1]; rfl))]
      exact ⟨q, h1, h2⟩
    · rw [heed_refines.other _ _ _ hi e]; exact ⟨q, h1, h2⟩
  · rintro t ts ⟨hi, hk⟩
    refine ⟨heed_refines.inv _ _ hi, fun c p hp => ?_⟩
    obtain ⟨q, h1, h2⟩ := hk c p hp
    by_cases e : c = name.text
    · rw [heed_refines.step t (.addTriples name.text ts) hi trivial, ← e]
      cases (exec Heed.ops t (.addTriples c ts)).1 with
      | ok u =>
        refine ⟨fun x => q x ∨ x ∈ ts, ?_, fun x hx => .inl (h2 x hx)⟩
        simp only [applyEvent, apply, h1]
        simp [World.set]
      | err m => exact ⟨q, h1, h2⟩
      | panic => exact ⟨q, h1, h2⟩
    · rw [heed_refines.other _ _ _ hi e]; exact ⟨q, h1, h2⟩

theorem mem_keeps (scripts : List Str) (s : Mem) (c : Str) (h : Listed Mem.ops s c) : Listed Mem.ops (afterScripts (Graph.ops Mem.ops) scripts s) c := by
  refine scripts_keep (Graph.ops Mem.ops) (fun t => Listed Mem.ops t c) ?_ scripts s h
  intro t name n h
  rw [show letStore (Graph.ops Mem.ops) name n t = _ from memLet name n t, mem_listed]
  rw [mem_listed] at h
  by_cases e : c = name.text
  · subst e; simp
  · rw [BMap.get?_insert_ne _ _ e]; exact h

theorem sameView_read {T : TripsOps σ} {s : σ} {U : TripsOps τ} {u : τ} {w w' : World} (hA : Agrees U u w) (hB : Agrees T s w') (h : SameView U u T s) :
    w = w' := by
  funext c
  have h1 := h.1 c
  rw [hA.listed, hB.listed] at h1
  cases e : w c with
  | none =>
    cases e' : w' c with
    | none => rfl
    | some p => rw [e, e'] at h1; simp at h1
  | some p =>
    cases e' : w' c with
    | none => rw [e, e'] at h1; simp at h1
    | some q =>
      obtain ⟨ts, a1, a2⟩ := h.2 c ((hA.listed c).mpr (by rw [e]; rfl))
      obtain ⟨xs, b1, b2⟩ := hA.2 c p e
      obtain ⟨ys, c1, c2⟩ := hB.2 c q e'
      rw [a1] at b1; cases b1
      rw [a2] at c1; cases c1
      exact congrArg some (funext fun t => propext ((b2 t).symm.trans (c2 t)))

/-- A script from the sayable calls that store a part of a listing. -/
theorem script_of_lists {U : TripsOps τ} {u : τ} (hS : SayableStore U u) {cs : List (Str × BSet Trip)} (hl : Lists U u cs)
    {ds : List (Str × BSet Trip)} (hd : ∀ p ∈ ds, p ∈ cs) : ∃ script, Means script (ds.map letCall) :=
  (C92_scripts _).mpr fun c hc => by
    obtain ⟨p, hp, rfl⟩ := List.mem_map.mp hc
    exact sayable_lets hS hl _ (List.mem_map_of_mem (hd p hp))

theorem leads_of_once {T : TripsOps σ} {s : σ} {U : TripsOps τ} {u : τ} (h : LeadsAtOnce T s U u) : Leads T s U u := by
  obtain ⟨script, _, h⟩ := h
  exact ⟨[script], h⟩

end Reach
open Reach Apart

/-- C101, in-memory store: scripts can turn a store (in any state) into one that shows given sayable contents exactly if the contents have all
the collections of the store; one script that succeeds is enough. -/
theorem C101_mem (s : Mem) (U : TripsOps τ) (u : τ) (w : World) (hA : Agrees U u w) (hS : SayableStore U u) :
    (Leads Mem.ops s U u ↔ ∀ c, Listed Mem.ops s c → Listed U u c) ∧ (Leads Mem.ops s U u → LeadsAtOnce Mem.ops s U u) := by
  have back : (∀ c, Listed Mem.ops s c → Listed U u c) → LeadsAtOnce Mem.ops s U u := by
    intro h
    obtain ⟨cs, hl⟩ := lists_of_agrees hA
    obtain ⟨script, hm⟩ := script_of_lists hS hl (fun p hp => hp)
    obtain ⟨m', e, g1, g2⟩ := load_mem_of hl s
    have e : run (Graph.ops Mem.ops) common script s = (.ok (.network ∅), m') := by rw [run_means _ _ hm]; exact e
    refine ⟨script, by rw [e], ?_⟩
    rw [e]
    refine ⟨fun c => ⟨fun hc => (g1 c hc).1, fun hc => ?_⟩, fun c hc => ?_⟩
    · by_cases hu : Listed U u c
      · exact hu
      · exact h c ((g2 c hu).1.mp hc)
    · obtain ⟨p, hp⟩ := Option.isSome_iff_exists.mp ((hA.listed c).mp hc)
      obtain ⟨ts, e1, _⟩ := hA.2 c p hp
      exact ⟨ts, e1, by rw [(g1 c hc).2, e1]⟩
  have forth : Leads Mem.ops s U u → ∀ c, Listed Mem.ops s c → Listed U u c := by
    rintro ⟨scripts, h⟩ c hc
    exact (h.1 c).mpr (mem_keeps scripts s c hc)
  exact ⟨⟨forth, fun h => leads_of_once (back h)⟩, fun h => back (forth h)⟩

/-- C101, LMDB store: exactly if the contents have all the collections of the store and in each at least its triples (in every reachable state, for contents
under names that LMDB accepts as keys, as long as there are identifiers enough). -/
theorem C101_heed (l : List Op) (U : TripsOps τ) (u : τ) (w : World) (hA : Agrees U u w) (hS : SayableStore U u)
    (hk : ∀ c, Listed U u c → Heed.lmdbKey c = true) (hr : RoomFor (costOf l) U u) :
    let s := (runOps Heed.ops Heed.new l).2
    (Leads Heed.ops s U u ↔ ∀ c, Listed Heed.ops s c → Listed U u c ∧
      ∀ ts us, Heed.ops.triples s c = .ok ts → U.triples u c = .ok us → ∀ t ∈ ts, t ∈ us) ∧
    (Leads Heed.ops s U u → LeadsAtOnce Heed.ops s U u) := by
  intro s
  have hg : Heed.Good s := heed_good l
  have back : (∀ c, Listed Heed.ops s c → Listed U u c ∧
      ∀ ts us, Heed.ops.triples s c = .ok ts → U.triples u c = .ok us → ∀ t ∈ ts, t ∈ us) → LeadsAtOnce Heed.ops s U u := by
    intro h
    obtain ⟨cs, hl⟩ := lists_of_agrees hA
    obtain ⟨script, hm⟩ := script_of_lists hS hl (fun p hp => hp)
    obtain ⟨v1, v2⟩ := lists_world hA hl
    have hsum : costOf l + (cs.map fun p => 1 + 3 * p.2.toList.length).sum ≤ 2 ^ 64 := by
      obtain ⟨ds, a1, a2, a3⟩ := hr
      have e1 : ds.map Prod.fst = cs.map Prod.fst := by rw [hl.1] at a1; injection a1 with a1; exact a1.symm
      have : ds = cs := by
        have len : ds.length = cs.length := by simpa using congrArg List.length e1
        apply List.ext_getElem len
        intro i h1 h2
        have ef : ds[i].1 = cs[i].1 := by
          have := congrArg (fun l => l[i]?) e1
          simpa [h1, h2] using this
        have p1 := a2 _ (List.getElem_mem h1)
        have p2 := hl.2.2 _ (List.getElem_mem h2)
        rw [ef, p2] at p1
        injection p1 with p1
        exact Prod.ext ef p1.symm
      rw [← this]; exact a3
    have hcost := letsCost_asLets cs
    have hroom : Heed.Room s (letsCost (asLets cs) + 0) :=
      Heed.room_runOps l Heed.new _ Heed.good_new (by simp only [Heed.Room, Heed.used, Heed.new]; omega)
    obtain ⟨a1, a2, _, a4⟩ := lets_heed (asLets cs) hg (fun x hx => by
      obtain ⟨p, hp, rfl⟩ := List.mem_map.mp hx
      exact hk p.1 ⟨_, hl.1, List.mem_map_of_mem hp⟩) hroom (.network ∅)
    have ew : (asLets cs).foldl letWorld (Heed.worldOf s) = w := by
      refine world_lets (fun c p hp => ?_) (fun c hc => .inl ?_) v1
      · obtain ⟨b1, b2⟩ := h c ((heed_listed hg c).mpr (by rw [hp]; rfl))
        obtain ⟨q, hq⟩ := Option.isSome_iff_exists.mp ((hA.listed c).mp b1)
        obtain ⟨us, c1, c2⟩ := hA.2 c q hq
        obtain ⟨ts, d1, d2⟩ := (heed_agrees hg).2 c p hp
        exact ⟨q, hq, fun t ht => (c2 t).mp (b2 ts us d1 c1 t ((d2 t).mpr ht))⟩
      · exact Classical.byContradiction fun hn => hc (v2 c hn)
    have e : run (Graph.ops Heed.ops) common script s = (.ok (.network ∅), afterLets (Graph.ops Heed.ops) s (asLets cs)) := by
      rw [run_means _ _ hm, ← letCalls_asLets]
      refine a1.trans ?_
      simp only [emptyNet, ite_self]
    refine ⟨script, by rw [e], ?_⟩
    rw [e]
    have hB := heed_agrees a2
    rw [a4, ew] at hB
    exact hA.sameView hB
  have forth : Leads Heed.ops s U u → ∀ c, Listed Heed.ops s c → Listed U u c ∧
      ∀ ts us, Heed.ops.triples s c = .ok ts → U.triples u c = .ok us → ∀ t ∈ ts, t ∈ us := by
    rintro ⟨scripts, h⟩ c hc
    obtain ⟨k1, k2⟩ := heed_keeps scripts hg
    have ew := sameView_read hA (heed_agrees k1) h
    obtain ⟨p, hp⟩ := Option.isSome_iff_exists.mp ((heed_listed hg c).mp hc)
    obtain ⟨q, hq, hs⟩ := k2 c p hp
    rw [← ew] at hq
    refine ⟨(hA.listed c).mpr (by rw [hq]; rfl), fun ts us e1 e2 t ht => ?_⟩
    obtain ⟨xs, c1, c2⟩ := hA.2 c q hq
    obtain ⟨ys, d1, d2⟩ := (heed_agrees hg).2 c p hp
    rw [e2] at c1; cases c1
    rw [e1] at d1; cases d1
    exact (c2 t).mpr (hs t ((d2 t).mp ht))
  exact ⟨⟨forth, fun h => leads_of_once (back h)⟩, fun h => back (forth h)⟩

/-- C101, DuckDB store: exactly if the contents have all the collections of the store, each with the same triples (in every reachable state). -/
theorem C101_duck (l : List Op) (U : TripsOps τ) (u : τ) (w : World) (hA : Agrees U u w) (hS : SayableStore U u) :
    let s := (runOps Duck.ops Duck.new l).2
    (Leads Duck.ops s U u ↔ ∀ c, Listed Duck.ops s c → Listed U u c ∧ U.triples u c = Duck.ops.triples s c) ∧
    (Leads Duck.ops s U u → LeadsAtOnce Duck.ops s U u) := by
  intro s
  have hg : Duck.Inv s := duck_inv l
  have hD : Agrees Duck.ops s (Duck.world s) := Duck.agrees hg
  have back : (∀ c, Listed Duck.ops s c → Listed U u c ∧ U.triples u c = Duck.ops.triples s c) → LeadsAtOnce Duck.ops s U u := by
    intro h
    obtain ⟨cs, hl⟩ := lists_of_agrees hA
    obtain ⟨v1, v2⟩ := lists_world hA hl
    let ds := cs.filter fun p => (Duck.world s p.1).isNone
    have hd : ∀ p ∈ ds, p ∈ cs := fun p hp => (List.mem_filter.mp hp).1
    obtain ⟨script, hm⟩ := script_of_lists hS hl hd
    have hn : (ds.map Prod.fst).Nodup := hl.2.1.sublist (List.Sublist.map _ List.filter_sublist)
    obtain ⟨s', b1, b2, b3⟩ := lets_duck ds hg hn (fun p hp => Option.isNone_iff_eq_none.mp (List.mem_filter.mp hp).2) (.network ∅) rfl
    have same : ∀ c p, Duck.world s c = some p → w c = some p := by
      intro c p hp
      obtain ⟨g1, g2⟩ := h c ((hD.listed c).mpr (by rw [hp]; rfl))
      obtain ⟨q, hq⟩ := Option.isSome_iff_exists.mp ((hA.listed c).mp g1)
      obtain ⟨us, c1, c2⟩ := hA.2 c q hq
      obtain ⟨ts, d1, d2⟩ := hD.2 c p hp
      rw [g2, d1] at c1; cases c1
      rw [hq]
      exact congrArg some (funext fun t => propext ((c2 t).symm.trans (d2 t)))
    have ew : (asLets ds).foldl letWorld (Duck.world s) = w := by
      refine world_lets (fun c p hp => ⟨p, same c p hp, fun _ h => h⟩) (fun c hc => ?_) (fun p hp => v1 p (hd p hp))
      cases e : Duck.world s c with
      | some p => exact .inr (same c p e).symm
      | none =>
        refine .inl ?_
        have : c ∈ cs.map Prod.fst := Classical.byContradiction fun hn => hc (v2 c hn)
        obtain ⟨p, hp, rfl⟩ := List.mem_map.mp this
        exact List.mem_map_of_mem (List.mem_filter.mpr ⟨hp, by rw [e]; rfl⟩)
    have e : run (Graph.ops Duck.ops) common script s = (.ok (.network ∅), s') := by rw [run_means _ _ hm]; exact b1
    refine ⟨script, by rw [e], ?_⟩
    rw [e]
    have hB := Duck.agrees b2
    rw [b3, ew] at hB
    exact hA.sameView hB
  have forth : Leads Duck.ops s U u → ∀ c, Listed Duck.ops s c → Listed U u c ∧ U.triples u c = Duck.ops.triples s c := by
    rintro ⟨scripts, h⟩ c hc
    obtain ⟨k1, k2⟩ := duck_keeps scripts hg
    have ew := sameView_read hA (Duck.agrees k1) h
    obtain ⟨p, hp⟩ := Option.isSome_iff_exists.mp ((hD.listed c).mp hc)
    have hq := k2 c p hp
    rw [← ew] at hq
    refine ⟨(hA.listed c).mpr (by rw [hq]; rfl), ?_⟩
    obtain ⟨xs, c1, c2⟩ := hA.2 c p hq
    obtain ⟨ys, d1, d2⟩ := hD.2 c p hp
    rw [c1, d1, BSet.ext fun t => (c2 t).trans (d2 t).symm]
  exact ⟨⟨forth, fun h => leads_of_once (back h)⟩, fun h => back (forth h)⟩

/-- C101: undoing. On the database-backed stores, in any reachable state, no scripts make up for earlier ones: if scripts bring back what the store showed
before the earlier ones ran, it has shown that all the time. On the in-memory store it can be brought back, if it is sayable, exactly as long as no collection has been added. -/
theorem C101_undo (l : List Op) (scripts : List Str) :
    (let s := (runOps Heed.ops Heed.new l).2
     let s' := afterScripts (Graph.ops Heed.ops) scripts s
     Leads Heed.ops s' Heed.ops s ↔ SameView Heed.ops s Heed.ops s') ∧
    (let s := (runOps Duck.ops Duck.new l).2
     let s' := afterScripts (Graph.ops Duck.ops) scripts s
     Leads Duck.ops s' Duck.ops s ↔ SameView Duck.ops s Duck.ops s') ∧
    (∀ s : Mem, SayableStore Mem.ops s →
      let s' := afterScripts (Graph.ops Mem.ops) scripts s
      ((∃ more, afterScripts (Graph.ops Mem.ops) more s' = s) ↔ ∀ c, Listed Mem.ops s' c → Listed Mem.ops s c)) := by
  refine ⟨⟨?_, fun h => ⟨[], h⟩⟩, ⟨?_, fun h => ⟨[], h⟩⟩, fun s hS => ⟨?_, fun h => ?_⟩⟩
  · rintro ⟨more, h⟩
    obtain ⟨g1, g2⟩ := heed_keeps scripts (heed_good l)
    obtain ⟨k1, k2⟩ := heed_keeps more g1
    have ew := sameView_read (heed_agrees (heed_good l)) (heed_agrees k1) h
    have : Heed.worldOf (runOps Heed.ops Heed.new l).2 =
        Heed.worldOf (afterScripts (Graph.ops Heed.ops) scripts (runOps Heed.ops Heed.new l).2) := by
      funext c
      cases e : Heed.worldOf (afterScripts (Graph.ops Heed.ops) scripts (runOps Heed.ops Heed.new l).2) c with
      | none =>
        cases e' : Heed.worldOf (runOps Heed.ops Heed.new l).2 c with
        | none => rfl
        | some p =>
          obtain ⟨q, hq, _⟩ := g2 c p e'
          rw [e] at hq; cases hq
      | some q =>
        obtain ⟨r, hr, hqr⟩ := k2 c q e
        rw [← ew] at hr
        obtain ⟨q', hq', hrq⟩ := g2 c r hr
        rw [e] at hq'; cases hq'
        rw [hr]
        exact congrArg some (funext fun t => propext ⟨hrq t, hqr t⟩)
    have hB := heed_agrees g1
    rw [← this] at hB
    exact (heed_agrees (heed_good l)).sameView hB
  · rintro ⟨more, h⟩
    obtain ⟨g1, g2⟩ := duck_keeps scripts (duck_inv l)
    obtain ⟨k1, k2⟩ := duck_keeps more g1
    have ew := sameView_read (Duck.agrees (duck_inv l)) (Duck.agrees k1) h
    have : Duck.world (runOps Duck.ops Duck.new l).2 =
        Duck.world (afterScripts (Graph.ops Duck.ops) scripts (runOps Duck.ops Duck.new l).2) := by
      funext c
      cases e : Duck.world (afterScripts (Graph.ops Duck.ops) scripts (runOps Duck.ops Duck.new l).2) c with
      | none =>
        cases e' : Duck.world (runOps Duck.ops Duck.new l).2 c with
        | none => rfl
        | some p => exact e ▸ (g2 c p e').symm
      | some q => rw [ew]; exact k2 c q e
    have hB := Duck.agrees g1
    rw [← this] at hB
    exact (Duck.agrees (duck_inv l)).sameView hB
  · rintro ⟨more, h⟩ c hc
    rw [← h]
    exact mem_keeps more _ c hc
  · obtain ⟨more, hv⟩ := (C101_mem _ Mem.ops s _ (Mem.agrees s) hS).1.mpr h
    refine ⟨more, ?_⟩
    have ew := sameView_read (Mem.agrees s) (Mem.agrees _) hv
    generalize afterScripts (Graph.ops Mem.ops) more (afterScripts (Graph.ops Mem.ops) scripts s) = u at ew hv
    have : u.colls = s.colls := by
      apply BMap.ext_get
      intro c
      have h1 := hv.1 c
      have h2 := hv.2 c
      rw [mem_listed, mem_listed] at h1
      rw [mem_listed] at h2
      simp only [Mem.ops, Mem.triples] at h2
      cases e1 : s.colls.get? c <;> cases e2 : u.colls.get? c <;> rw [e1, e2] at h1 h2 <;> simp at h1 h2 ⊢
      exact h2
    show (⟨u.colls⟩ : Mem) = ⟨s.colls⟩
    rw [this]

/-! ## Cases: the target is the store of `saidOps`, which has one collection `T` with one triple -/

/-- A history that leaves an empty `T`, and one that leaves a `T` with another triple. -/
def emptyT : List Op := [.addCollection (lit "T")]
def otherT : List Op := [.addCollection (lit "T"), .addTriples (lit "T") (BSet.ofList [⟨lit "x", lit "r", lit "y"⟩])]

theorem listed_of_names {T : TripsOps σ} {s : σ} {l : List Str} (h : T.collections s = .ok l) (c : Str) : Listed T s c ↔ c ∈ l :=
  ⟨fun ⟨l', h1, h2⟩ => by rw [h] at h1; cases h1; exact h2, fun hc => ⟨l, h, hc⟩⟩

/-- In memory the other `T` can be turned into the target; an added `U` could not be got rid of. -/
example : Leads Mem.ops (runOps Mem.ops Mem.new otherT).2 Mem.ops (runOps Mem.ops Mem.new saidOps).2 ∧
    ¬ Leads Mem.ops (runOps Mem.ops Mem.new (emptyT ++ [.addCollection (lit "U")])).2 Mem.ops (runOps Mem.ops Mem.new saidOps).2 := by
  have ht : Mem.ops.collections (runOps Mem.ops Mem.new saidOps).2 = .ok [lit "T"] := by decide +kernel
  constructor
  · refine (C101_mem _ Mem.ops _ _ (Mem.agrees _) said_store).1.mpr fun c hc => ?_
    rw [listed_of_names (l := [lit "T"]) (by decide +kernel)] at hc
    exact (listed_of_names ht c).mpr hc
  · intro h
    have := (C101_mem _ Mem.ops _ _ (Mem.agrees _) said_store).1.mp h (lit "U")
      ((listed_of_names (l := [lit "T", lit "U"]) (by decide +kernel) _).mpr (by simp))
    rw [listed_of_names ht] at this
    revert this
    decide

/-- On the LMDB store the empty `T` can be turned into the target, the other `T` cannot. -/
example : Leads Heed.ops (runOps Heed.ops Heed.new emptyT).2 Mem.ops (runOps Mem.ops Mem.new saidOps).2 ∧
    ¬ Leads Heed.ops (runOps Heed.ops Heed.new otherT).2 Mem.ops (runOps Mem.ops Mem.new saidOps).2 := by
  have ht : Mem.ops.collections (runOps Mem.ops Mem.new saidOps).2 = .ok [lit "T"] := by decide +kernel
  have hk : ∀ c, Listed Mem.ops (runOps Mem.ops Mem.new saidOps).2 c → Heed.lmdbKey c = true := by
    intro c hc
    rw [listed_of_names ht, List.mem_singleton] at hc
    subst hc
    decide +kernel
  have room : ∀ n, n ≤ 100 → RoomFor n Mem.ops (runOps Mem.ops Mem.new saidOps).2 := fun n hn =>
    ⟨[(lit "T", BSet.ofList [⟨lit "a b", lit ":", lit "say \\\"hi\\\""⟩])], ht, by decide +kernel, by
      show n + 4 ≤ 2 ^ 64
      omega⟩
  constructor
  · refine (C101_heed emptyT Mem.ops _ _ (Mem.agrees _) said_store hk (room _ (by decide +kernel))).1.mpr fun c hc => ?_
    rw [listed_of_names (l := [lit "T"]) (by decide +kernel)] at hc
    refine ⟨(listed_of_names ht c).mpr hc, fun ts us e1 _ t h => ?_⟩
    rw [List.mem_singleton] at hc
    subst hc
    rw [show Heed.ops.triples (runOps Heed.ops Heed.new emptyT).2 (lit "T") = .ok ∅ from by decide +kernel] at e1
    cases e1
    exact absurd h (BSet.not_mem_empty t)
  · intro h
    have := ((C101_heed otherT Mem.ops _ _ (Mem.agrees _) said_store hk (room _ (by decide +kernel))).1.mp h (lit "T")
      ((listed_of_names (l := [lit "T"]) (by decide +kernel) _).mpr (by simp))).2
      (BSet.ofList [⟨lit "x", lit "r", lit "y"⟩]) (BSet.ofList [⟨lit "a b", lit ":", lit "say \\\"hi\\\""⟩])
      (by decide +kernel) (by decide +kernel) ⟨lit "x", lit "r", lit "y"⟩ (by decide +kernel)
    revert this
    decide +kernel

/-- On the DuckDB store the new store can be turned into the target, the one with an empty `T` cannot. -/
example : Leads Duck.ops (runOps Duck.ops Duck.new []).2 Mem.ops (runOps Mem.ops Mem.new saidOps).2 ∧
    ¬ Leads Duck.ops (runOps Duck.ops Duck.new emptyT).2 Mem.ops (runOps Mem.ops Mem.new saidOps).2 := by
  constructor
  · refine (C101_duck [] Mem.ops _ _ (Mem.agrees _) said_store).1.mpr fun c hc => ?_
    rw [listed_of_names (l := []) rfl] at hc
    cases hc
  · intro h
    have := ((C101_duck emptyT Mem.ops _ _ (Mem.agrees _) said_store).1.mp h (lit "T")
      ((listed_of_names (l := [lit "T"]) (by decide +kernel) _).mpr (by simp))).2
    revert this
    decide +kernel

/-- A script whose effect cannot be undone on the database-backed stores, and can in memory. -/
example : ¬ Leads Heed.ops (afterScripts (Graph.ops Heed.ops) [lit "let T {x r y}"] (runOps Heed.ops Heed.new saidOps).2) Heed.ops (runOps Heed.ops Heed.new saidOps).2 ∧
    ¬ Leads Duck.ops (afterScripts (Graph.ops Duck.ops) [lit "let U {x r y}"] (runOps Duck.ops Duck.new saidOps).2) Duck.ops (runOps Duck.ops Duck.new saidOps).2 ∧
    ∃ more, afterScripts (Graph.ops Mem.ops) more (afterScripts (Graph.ops Mem.ops) [lit "let T {x r y}"] (runOps Mem.ops Mem.new saidOps).2) =
      (runOps Mem.ops Mem.new saidOps).2 := by
  refine ⟨fun h => ?_, fun h => ?_, ?_⟩
  · have hv := (C101_undo saidOps [lit "let T {x r y}"]).1.mp h
    obtain ⟨ts, e1, e2⟩ := hv.2 (lit "T") ((listed_of_names (l := [lit "T"]) (by decide +kernel) _).mpr (by simp))
    have := e1.trans e2.symm
    revert this
    decide +kernel
  · have hv := (C101_undo saidOps [lit "let U {x r y}"]).2.1.mp h
    have := (hv.1 (lit "U")).mpr ((listed_of_names (l := [lit "T", lit "U"]) (by decide +kernel) _).mpr (by simp))
    rw [listed_of_names (l := [lit "T"]) (by decide +kernel)] at this
    revert this
    decide
  · refine ((C101_undo [] [lit "let T {x r y}"]).2.2 _ said_store).mpr fun c hc => ?_
    rw [listed_of_names (l := [lit "T"]) (by decide +kernel)] at hc ⊢
    exact hc

end Props
end Verif
