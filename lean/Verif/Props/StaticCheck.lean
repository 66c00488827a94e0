import Verif.Proofs.StaticCheck
import Verif.Props.ScriptsCross
import Verif.Props.Backup
/-!
# C80: a static check that excludes panics
-/
namespace Verif
namespace Props
open Spec Eval

theorem length_union_le [SOrd α] (a b : BSet α) : (a.union b).toList.length ≤ a.toList.length + b.toList.length := by
  have : ∀ (l : List α) (t : BSet α), (BSet.insertAll t l).toList.length ≤ t.toList.length + l.length := by
    intro l
    induction l with
    | nil => intro t; simp [BSet.insertAll]
    | cons b l ih =>
      intro t
      have h1 := ih (t.insert b)
      have h2 : (t.insert b).toList.length ≤ t.toList.length + 1 := length_insertL b t.toList
      have h3 : BSet.insertAll t (b :: l) = BSet.insertAll (t.insert b) l := rfl
      rw [h3]; simp only [List.length_cons]; omega
  exact this b.toList a

theorem mem_letStore (m : Mem) (c : Element) (n : Network) :
    letStore Graph.memOps c n m = (.ok emptyNet, ⟨(m.colls.insert c.text ∅).insert c.text ((∅ : BSet Trip).union (n.map Graph.entryToTrip))⟩) := by
  simp only [letStore]
  rw [show Graph.memOps.addCollection m c = (.ok (), ⟨m.colls.insert c.text ∅⟩) from rfl]
  simp only
  rw [show Graph.memOps.addEntries ⟨m.colls.insert c.text ∅⟩ c n = ((Mem.addTriples ⟨m.colls.insert c.text ∅⟩ c.text (n.map Graph.entryToTrip)).1.errTodo,
    (Mem.addTriples ⟨m.colls.insert c.text ∅⟩ c.text (n.map Graph.entryToTrip)).2.1, n) from rfl]
  rw [Mem.addTriples, BMap.get?_insert_self]
  rfl

def memNames (_ : Nat) (Γ : List Str) (s : Mem) : Prop := ∀ c ∈ Γ, (s.colls.get? c).isSome

theorem mem_provides : Provides .memory Graph.memOps memNames (fun _ => True) (fun _ => True) where
  mono _ h := h
  fewer _ hs h := fun c hc => h c (hs c hc)
  read {j Γ s c} h hc := by
    obtain ⟨ts, hts⟩ := Option.isSome_iff_exists.mp (h _ hc)
    refine ⟨ts.map Graph.tripToEntry, ?_, trivial⟩
    show (Mem.triples s c.text).map _ = _
    rw [Mem.triples, hts]; rfl
  readAny {j Γ s c} _ _ := by
    show (Mem.triples s c.text).map _ ≠ _
    unfold Mem.triples
    split <;> simp [Res.map]
  filter {j Γ s c a r b} _ h hc ha hr hb := by
    obtain ⟨_, sel, _, h2, _⟩ := C36_filter_agrees_with_entries s c (.role a b r) ⟨ha, hr, hb⟩ ((mem_listed s _).mpr (h _ hc))
    exact ⟨sel, h2, trivial⟩
  lets {j Γ s c n} h _ _ := by
    rw [mem_letStore]
    refine ⟨rfl, fun d hd => ?_⟩
    by_cases e : d = c.text
    · subst e; simp [BMap.get?_insert_self]
    · rw [BMap.get?_insert_ne _ _ e, BMap.get?_insert_ne _ _ e]
      exact h d (by rcases List.mem_cons.mp hd with hd | hd; exact absurd hd e; exact hd)
  empty := trivial
  lit _ := trivial
  union _ _ := trivial
  docs _ := trivial

/-- C80, in-memory store: in any state in which the names `Γ` are listed, a script that passes the check does not panic. -/
theorem C80_in_memory (s : Mem) (Γ : List Str) (hΓ : ∀ c ∈ Γ, Listed Mem.ops s c) (calls : List Call) (h : Passes .memory Γ calls) :
    (runCalls (Graph.ops Mem.ops) common calls s).1 ≠ .panic :=
  passes_noPanic mem_provides h (fun _ _ => trivial) (fun c hc => (mem_listed s c).mp (hΓ c hc))

def strictNames (B : Nat) (j : Nat) (Γ : List Str) (s : Mem × Nat) : Prop :=
  j * (1 + 3 * B) ≤ s.2 ∧ (∀ c, c ∈ Γ ↔ (s.1.colls.get? c).isSome) ∧ ∀ c ts, s.1.colls.get? c = some ts → ts.toList.length ≤ B

theorem strict_provides (B : Nat) (hB : 9 ≤ B) :
    Provides .anyStore strictOps (strictNames B) (fun n => 2 * n.toList.length ≤ B) (fun n => n.toList.length ≤ B) where
  mono hij h := ⟨Nat.le_trans (Nat.mul_le_mul_right _ hij) h.1, h.2⟩
  fewer h := nomatch h
  read {j Γ s c} h hc := by
    have hs := (h.2.1 _).mp hc
    obtain ⟨ts, hts⟩ := Option.isSome_iff_exists.mp hs
    refine ⟨ts.map Graph.tripToEntry, ?_, Nat.le_trans (length_map_le _ _) (h.2.2 _ _ hts)⟩
    simp only [strictOps, hs, if_true]
    show (Mem.triples s.1 c.text).map _ = _
    rw [Mem.triples, hts]; rfl
  readAny h := nomatch h
  filter h := nomatch h
  lets {j Γ s c n} h hc hn := by
    obtain ⟨m, k⟩ := s
    obtain ⟨h1, h2, h3⟩ := h
    obtain ⟨hc1, hc2⟩ := hc rfl
    simp only at h1 h2 h3
    rw [Nat.succ_mul] at h1
    have h0 : ¬ ((m.colls.get? c.text).isSome ∨ Heed.lmdbKey c.text = false ∨ k < 1) := by
      rw [hc2, ← h2]; simp only [hc1, false_or, Bool.true_eq_false]; omega
    have ea : strictOps.addCollection (m, k) c = (.ok (), (⟨m.colls.insert c.text ∅⟩, k - 1)) := by
      simp only [strictOps, if_neg h0]; rfl
    have eb : strictOps.addEntries (⟨m.colls.insert c.text ∅⟩, k - 1) c n =
        (.ok (), (⟨(m.colls.insert c.text ∅).insert c.text ((∅ : BSet Trip).union (n.map Graph.entryToTrip))⟩, k - 1 - 3 * n.toList.length), n) := by
      have hcond : (((Mem.mk (m.colls.insert c.text ∅), k - 1).1.colls.get? c.text).isSome ∧
          3 * n.toList.length ≤ (Mem.mk (m.colls.insert c.text ∅), k - 1).2) := by
        refine ⟨by simp [BMap.get?_insert_self], ?_⟩
        simp only; omega
      simp only [strictOps]
      rw [if_pos hcond]
      rw [show Graph.memOps.addEntries ⟨m.colls.insert c.text ∅⟩ c n = ((Mem.addTriples ⟨m.colls.insert c.text ∅⟩ c.text (n.map Graph.entryToTrip)).1.errTodo,
        (Mem.addTriples ⟨m.colls.insert c.text ∅⟩ c.text (n.map Graph.entryToTrip)).2.1, n) from rfl]
      rw [Mem.addTriples, BMap.get?_insert_self]
      rfl
    simp only [letStore, ea, eb]
    refine ⟨trivial, by simp only; omega, fun d => ?_, fun d ts hd => ?_⟩
    · simp only
      by_cases e : d = c.text
      · subst e; simp [BMap.get?_insert_self]
      · rw [BMap.get?_insert_ne _ _ e, BMap.get?_insert_ne _ _ e, List.mem_cons, ← h2]
        simp [e]
    · simp only at hd
      by_cases e : d = c.text
      · subst e
        rw [BMap.get?_insert_self] at hd
        cases hd
        have := length_union_le (∅ : BSet Trip) (n.map Graph.entryToTrip)
        have h' := length_map_le Graph.entryToTrip n
        have h'' : (∅ : BSet Trip).toList.length = 0 := rfl
        omega
      · rw [BMap.get?_insert_ne _ _ e, BMap.get?_insert_ne _ _ e] at hd
        exact h3 _ _ hd
  empty := Nat.zero_le _
  lit h := by omega
  union {a b} ha hb := by have := length_union_le a b; omega
  docs {n} h := by
    have : n.toList.length = 9 := by
      have e : docs (common (σ := Mem × Nat)) [] = .ok (.network (match docs (common (σ := Unit)) [] with | .ok (.network n) => n | _ => ∅)) := rfl
      rw [e] at h
      cases h
      decide +kernel
    omega

/-- Two stores that show the same have the same world. -/
theorem world_eq_of_sameView {T : TripsOps σ} {T' : TripsOps τ} {s : σ} {t : τ} {w w' : World} (h : Agrees T s w) (h' : Agrees T' t w')
    (v : SameView T s T' t) : w' = w := by
  funext c
  have hl : (w' c).isSome ↔ (w c).isSome := by rw [← h.listed, ← h'.listed]; exact (v.1 c).symm
  cases hw : w c with
  | none =>
    rw [hw] at hl
    cases hw' : w' c with
    | none => rfl
    | some p => rw [hw'] at hl; simp at hl
  | some p =>
    rw [hw] at hl
    obtain ⟨p', hp'⟩ := Option.isSome_iff_exists.mp (hl.mpr rfl)
    obtain ⟨ts, h1, h2⟩ := h.2 _ _ hw
    obtain ⟨ts', h1', h2'⟩ := h'.2 _ _ hp'
    obtain ⟨ts'', e1, e2⟩ := v.2 c ((h.listed c).mpr (by rw [hw]; rfl))
    rw [h1] at e1; rw [h1'] at e2
    cases e1; cases e2
    rw [hp']; congr 1; funext x; exact propext ((h2' x).symm.trans (h2 x))

/-- C80, all three stores: three stores, each after any history, that show the same collections `Γ` with the same triples, the LMDB store with room
for the identifiers the script can need (`B` bounds the collections, and twice every network written in the script): a script that passes the check for any
store panics on none of them, has the same result on all, and leaves them showing the same. -/
theorem C80_any_store (l₁ l₂ l₃ : List Op) (Γ : List Str) (calls : List Call) (B : Nat)
    (v₂ : SameView Mem.ops (runOps Mem.ops Mem.new l₁).2 Heed.ops (runOps Heed.ops Heed.new l₂).2)
    (v₃ : SameView Mem.ops (runOps Mem.ops Mem.new l₁).2 Duck.ops (runOps Duck.ops Duck.new l₃).2)
    (hΓ : ∀ c, c ∈ Γ ↔ Listed Mem.ops (runOps Mem.ops Mem.new l₁).2 c)
    (hB : 9 ≤ B) (hold : ∀ c ts, Mem.ops.triples (runOps Mem.ops Mem.new l₁).2 c = .ok ts → ts.toList.length ≤ B)
    (hlit : ∀ n, WrittenValue calls (.network n) → 2 * n.toList.length ≤ B)
    (hroom : costOf l₂ + scriptSize calls * (1 + 3 * B) ≤ 2 ^ 64) (h : Passes .anyStore Γ calls) :
    let m := runCalls (Graph.ops Mem.ops) common calls (runOps Mem.ops Mem.new l₁).2
    let e := runCalls (Graph.ops Heed.ops) common calls (runOps Heed.ops Heed.new l₂).2
    let d := runCalls (Graph.ops Duck.ops) common calls (runOps Duck.ops Duck.new l₃).2
    m.1 ≠ .panic ∧ e.1 = m.1 ∧ d.1 = m.1 ∧ SameView Mem.ops m.2 Heed.ops e.2 ∧ SameView Mem.ops m.2 Duck.ops d.2 := by
  have room : heedInv (runOps Heed.ops Heed.new l₂).2 (scriptSize calls * (1 + 3 * B)) := by
    refine ⟨heed_good l₂, Heed.room_runOps l₂ _ _ Heed.good_new ?_⟩
    simp only [Heed.Room, Heed.used, Heed.new]; omega
  have hd := duck_inv l₃
  generalize (runOps Mem.ops Mem.new l₁).2 = m0 at *
  generalize (runOps Heed.ops Heed.new l₂).2 = e0 at *
  generalize (runOps Duck.ops Duck.new l₃).2 = d0 at *
  have we := world_eq_of_sameView (Mem.agrees m0) (heed_agrees room.1) v₂
  have wd := world_eq_of_sameView (Mem.agrees m0) (Duck.agrees hd) v₃
  have hp : (runCalls strictOps common calls (m0, scriptSize calls * (1 + 3 * B))).1 ≠ .panic := by
    refine passes_noPanic (strict_provides B hB) h hlit ⟨Nat.le_refl _, fun c => by rw [hΓ, mem_listed], fun c ts hc => hold c ts ?_⟩
    show Mem.triples m0 c = _
    simp only at hc
    rw [Mem.triples, hc]
  intro m e d
  obtain ⟨e1, ⟨_, _, i1⟩, w1⟩ := runCallsLoop_sim (follower_sim mem_follower (fun _ _ _ _ h => h)) calls emptyNet (m0, _) m0
    ⟨⟨_, Nat.le_refl _, trivial⟩, rfl⟩ hp
  obtain ⟨e2, ⟨_, _, i2⟩, w2⟩ := runCallsLoop_sim
    (follower_sim heed_follower (fun _ _ _ hk h => ⟨h.1, by have := h.2; unfold Heed.Room at *; omega⟩)) calls emptyNet (m0, _) e0
    ⟨⟨_, Nat.le_refl _, room⟩, we⟩ hp
  obtain ⟨e3, ⟨_, _, i3⟩, w3⟩ := runCallsLoop_sim (follower_sim duck_follower (fun _ _ _ _ h => h)) calls emptyNet (m0, _) d0
    ⟨⟨_, Nat.le_refl _, hd⟩, wd⟩ hp
  refine ⟨fun e => hp (by rw [← e]; exact e1.symm), e2.trans e1.symm, e3.trans e1.symm, ?_, ?_⟩
  · have a1 := Mem.agrees m.2
    have a2 := heed_agrees (s := e.2) i2.1
    rw [show Mem.world m.2 = _ from w1] at a1; rw [show Heed.worldOf e.2 = _ from w2] at a2
    exact a1.sameView a2
  · have a1 := Mem.agrees m.2
    have a2 := Duck.agrees (s := d.2) i3
    rw [show Mem.world m.2 = _ from w1] at a1; rw [show Duck.world d.2 = _ from w3] at a2
    exact a1.sameView a2

/-- C80 on the text of a script, new stores. -/
theorem C80_script (script : Str) (calls : List Call) (hm : Means script calls) :
    (Passes .memory [] calls → (run (Graph.ops Mem.ops) common script Mem.new).1 ≠ .panic) ∧
    ∀ B, 9 ≤ B → (∀ n, WrittenValue calls (.network n) → 2 * n.toList.length ≤ B) → scriptSize calls * (1 + 3 * B) ≤ 2 ^ 64 → Passes .anyStore [] calls →
      let m := run (Graph.ops Mem.ops) common script Mem.new
      let e := run (Graph.ops Heed.ops) common script Heed.new
      let d := run (Graph.ops Duck.ops) common script Duck.new
      m.1 ≠ .panic ∧ e.1 = m.1 ∧ d.1 = m.1 ∧ SameView Mem.ops m.2 Heed.ops e.2 ∧ SameView Mem.ops m.2 Duck.ops d.2 := by
  simp only [run_means _ _ hm]
  refine ⟨fun h => C80_in_memory Mem.new [] (by simp) calls h, fun B hB hl hr h => ?_⟩
  have hn : ∀ c, ¬ Listed Mem.ops Mem.new c := by intro c; rw [mem_listed]; simp [Mem.new]
  refine C80_any_store [] [] [] [] calls B ?_ ?_ (fun c => ⟨fun h => absurd h List.not_mem_nil, fun h => absurd h (hn c)⟩) hB ?_ hl (by simpa [costOf] using hr) h
  · exact (Mem.agrees Mem.new).sameView (by
      have := heed_agrees Heed.good_new; rwa [show Heed.worldOf Heed.new = Mem.world Mem.new by rw [Heed.worldOf_new, Mem.world_new]] at this)
  · exact (Mem.agrees Mem.new).sameView (by
      have := Duck.agrees Duck.inv_new; rwa [show Duck.world Duck.new = Mem.world Mem.new by rw [Duck.world_new, Mem.world_new]] at this)
  · intro c ts h
    exact nomatch h

/-- C80: for single calls without quotes the check for the in-memory store is exact (for `filter`: when it has no named variables): with `Γ` the names the
store lists, a call that does not pass panics. -/
theorem C80_exact (s : Mem) (Γ : List Str) (hΓ : ∀ c, c ∈ Γ ↔ Listed Mem.ops s c) (c : Call) (hq : ∀ v ∈ c.args, NotQuote v)
    (hf : c.name.text = lit "filter" → ∀ e : Element, .element e ∈ c.args → ¬ IsVar e.text) :
    (∃ Γ', CallPasses .memory false Γ c.name c.args Γ') ↔ (runCalls (Graph.ops Mem.ops) common [c] s).1 ≠ .panic := by
  constructor
  · rintro ⟨Γ', h⟩
    exact C80_in_memory s Γ (fun c h => (hΓ c).mp h) [c] (.cons h (.nil _))
  · intro h
    obtain ⟨name, args⟩ := c
    simp only at hq hf ⊢
    have nq : ∀ q, .quote q ∉ args := fun q h => hq _ h q rfl
    by_cases hu : Unknown (common (σ := Unit)) name.text
    · exact ⟨_, .unknown _ hu⟩
    have e : (runCalls (Graph.ops Mem.ops) common [⟨name, args⟩] s) = runQuote (Graph.ops Mem.ops) common (.element name :: args) s := by
      rw [runCalls_single, runCall, runQuote]
    rw [e] at h
    simp only [Unknown, common, List.mem_cons, List.not_mem_nil, or_false, forall_eq_or_imp, forall_eq, not_and, ne_eq] at hu
    have hu : name.text = lit "assert-equal" ∨ name.text = lit "assert-fail" ∨ name.text = lit "ignore" ∨ name.text = lit "let" ∨
        name.text = lit "read" ∨ name.text = lit "id" ∨ name.text = lit "docs" ∨ name.text = lit "union" ∨ name.text = lit "filter" := by
      grind
    rcases hu with hn | hn | hn | hn | hn | hn | hn | hn | hn
    · match args, hq with
      | [x, y], hq =>
        have arg : ∀ v ∈ [x, y], ArgPasses .memory false Γ v Γ := by
          intro v hv
          cases v with
          | element e => exact .element _ _
          | network n => exact .network _ _ _
          | quote q => exact absurd rfl (hq _ hv q)
        exact ⟨_, .equal hn (arg x (by simp)) (arg y (by simp))⟩
      | [], _ => exact ⟨_, .equalArgs hn (by simp)⟩
      | [_], _ => exact ⟨_, .equalArgs hn (by simp)⟩
      | _ :: _ :: _ :: _, _ => exact ⟨_, .equalArgs hn (by simp)⟩
    · exact ⟨_, .failArgs hn (by rintro ⟨q, rfl⟩; exact nq q (by simp))⟩
    · exact ⟨_, .ignore _ hn⟩
    · by_cases hl : ∃ c n, args = [.element c, .network n]
      · obtain ⟨c, n, rfl⟩ := hl
        exact ⟨_, .let_ n hn (fun h => nomatch h)⟩
      · exact ⟨_, .letArgs hn hl (by rintro ⟨c, q, rfl⟩; exact nq q (by simp))⟩
    · by_cases hl : ∃ c, args = [.element c]
      · obtain ⟨c, rfl⟩ := hl
        exact ⟨_, .readMissing c rfl hn⟩
      · exfalso; apply h
        rw [runQuote_call hn _ .read rfl, runFun]
        simp only [Eval.read]
        split
        · exact absurd ⟨_, rfl⟩ hl
        · rfl
    · exact ⟨_, .id _ hn⟩
    · exact ⟨_, .docsArgs _ hn⟩
    · by_cases hl : args.length = 2
      · rw [runQuote_call hn _ .union rfl, runFun] at h
        match args, hl, h with
        | [.network a, .network b], _, _ => exact ⟨_, .union a b hn⟩
        | [.network a, .element _], _, h => exact absurd rfl h
        | [.network a, .quote _], _, h => exact absurd rfl h
        | [.element _, _], _, h => exact absurd rfl h
        | [.quote _, _], _, h => exact absurd rfl h
      · exact ⟨_, .unionArgs hn hl⟩
    · by_cases hl : ∃ c a r b, args = [.element c, .element a, .element r, .element b]
      · obtain ⟨c, a, r, b, rfl⟩ := hl
        have hv := hf hn
        by_cases hc : Listed Mem.ops s c.text
        · exact ⟨_, .filter rfl hn ((hΓ _).mpr hc) (hv a (by simp)) (hv r (by simp)) (hv b (by simp))⟩
        · exfalso; apply h
          rw [runQuote_call hn _ .filter rfl, runFun]
          simp only [filterCmd]
          rw [show (Graph.ops Mem.ops).filter s c (.role a b r) = .panic from (C36_missing s c _ hc).2]
      · exfalso; apply h
        rw [runQuote_call hn _ .filter rfl, runFun]
        simp only [filterCmd]
        split
        · exact absurd ⟨_, _, _, _, rfl⟩ hl
        · rfl

/-- A script of eight calls that passes for any store: collections, copies through quotes, a caught failure, a comparison. -/
def checkedScript : Str :=
  lit "let T {a r b, a : c}, let S (union {a r b} {x ¬: y}), let U (read S), assert-fail (nope a), assert-equal (read T) {a : c, a r b}, id v w, read U"

def checkedCalls : List Call :=
  let ab : Entry := .role (.of (lit "a")) (.of (lit "b")) (.of (lit "r"))
  let ac : Entry := .ext (.of (lit "a")) (.of (lit "c"))
  let el (x : String) : Value := .element (.of (lit x))
  [call "let" [el "T", .network (BSet.ofList [ab, ac])],
   call "let" [el "S", .quote [el "union", .network (BSet.ofList [ab]), .network (BSet.ofList [.notExt (.of (lit "x")) (.of (lit "y"))])]],
   call "let" [el "U", .quote [el "read", el "S"]],
   call "assert-fail" [.quote [el "nope", el "a"]],
   call "assert-equal" [.quote [el "read", el "T"], .network (BSet.ofList [ac, ab])],
   call "id" [el "v", el "w"],
   call "read" [el "U"]]

theorem means_of_parse {script : Str} {calls : List Call}
    (h : (match Lexer.tokenizeAndFilter script with | .ok ts => Parser.parse ts | .err m => .err m | .panic => .panic) = .ok calls) : Means script calls := by
  cases ht : Lexer.tokenizeAndFilter script with
  | err m => rw [ht] at h; exact nomatch h
  | panic => rw [ht] at h; exact nomatch h
  | ok ts => rw [ht] at h; exact ⟨ts, ht, Parser.parse_ok_iff.mp h⟩

theorem checked_means : Means checkedScript checkedCalls := means_of_parse (by decide +kernel)

theorem checked_passes : Passes .anyStore [] checkedCalls := by
  refine .cons (.let_ _ rfl (fun _ => ⟨by simp, by decide⟩)) ?_
  refine .cons (.letQuote rfl (.call (.union _ _ rfl)) (fun _ => ⟨by decide, by decide⟩)) ?_
  refine .cons (.letQuote rfl (.call (.read rfl (by decide))) (fun _ => ⟨by decide, by decide⟩)) ?_
  refine .cons (.fail (Γ' := _) rfl (.call (.unknown _ (by unfold Unknown; decide))) (fun _ => ?_)) ?_
  · simp only [Mentions, MentionsList, or_false, List.cons.injEq, Value.element.injEq]
    rintro ⟨e, rest, ⟨rfl, _⟩, h⟩
    revert h; decide
  refine .cons (.equal rfl (.call (.read rfl (by decide))) (.network _ _ _)) ?_
  refine .cons (.id _ rfl) ?_
  exact .cons (.read rfl (by decide)) (.nil _)

/-- The hypotheses of `C80_script` hold for it with `B = 9`; it ends with the error of `id`. -/
example : (∀ n, WrittenValue checkedCalls (.network n) → 2 * n.toList.length ≤ 9) ∧ scriptSize checkedCalls * (1 + 3 * 9) ≤ 2 ^ 64 ∧
    (runCalls (Graph.ops Mem.ops) common checkedCalls Mem.new).1 = .err (lit "Id requires a single argument.") := by
  refine ⟨?_, by decide +kernel, by decide +kernel⟩
  rintro n ⟨c, hc, h⟩
  simp only [checkedCalls, List.mem_cons, List.not_mem_nil, or_false] at hc
  rcases hc with rfl | rfl | rfl | rfl | rfl | rfl | rfl <;>
    simp only [call, PartOfAny, PartOf, or_false, false_or, reduceCtorEq, Value.network.injEq] at h
  · subst h; decide +kernel
  · rcases h with rfl | rfl <;> decide +kernel
  · subst h; decide +kernel

/-- `C80_exact`: both sides occur. -/
example : (runCalls (Graph.ops Mem.ops) common [call "read" [.element (.of (lit "G"))]] Mem.new).1 ≠ .panic ∧
    (runCalls (Graph.ops Mem.ops) common [call "read" [.network ∅]] Mem.new).1 = .panic := by decide +kernel

/-- With quotes the check is not exact: the second argument, a quote that is no call, does not pass, but it is not reached. -/
example : (runCalls (Graph.ops Mem.ops) common [call "assert-equal" [.quote [.element (.of (lit "nope"))], .quote [.quote []]]] Mem.new).1 ≠ .panic := by
  decide +kernel

end Props
end Verif
