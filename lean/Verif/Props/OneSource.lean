import Verif.Spec.OneSource
import Verif.Props.Rearrange
import Verif.Props.ScriptsCross
import Verif.Props.Snapshot
/-!
# C104: no script combines two collections
-/
namespace Verif
namespace Props
open Spec Eval

namespace OneSource
open Assign

/-- The collection a network comes from, if it comes from one. -/
def source (c : Str) : Origin → Str
  | .said _ => c
  | .part d _ => d

theorem origin_same {s s' : Mem} {src : Origin} {c : Str} {n n' : Network} (h : src.Is s n) (h' : src.Is s' n')
    (e : Graph.memOps.entries s (.of (source c src)) = Graph.memOps.entries s' (.of (source c src))) : n = n' := by
  cases src with
  | said m => cases h; cases h'; rfl
  | part d keep =>
    obtain ⟨m, h1, h2⟩ := h
    obtain ⟨m', h3, h4⟩ := h'
    have e : Graph.memOps.entries s (.of d) = Graph.memOps.entries s' (.of d) := e
    rw [h1, h3] at e
    cases e
    exact BSet.ext fun x => by rw [h2, h4]

/-- A store with two collections. -/
def two (a b : Str) (X Y : BSet Trip) : Mem := ⟨((∅ : BMap Str (BSet Trip)).insert b Y).insert a X⟩

theorem two_a (a b : Str) (X Y : BSet Trip) : Mem.ops.triples (two a b X Y) a = .ok X := by
  simp only [Mem.ops, Mem.triples, two, BMap.get?_insert_self]

theorem two_b {a b : Str} (h : a ≠ b) (X Y : BSet Trip) : Mem.ops.triples (two a b X Y) b = .ok Y := by
  simp only [Mem.ops, Mem.triples, two, BMap.get?_insert_ne _ _ (Ne.symm h), BMap.get?_insert_self]

theorem two_ne {a b d : Str} (X Y X' : BSet Trip) (h : d ≠ a) : Graph.memOps.entries (two a b X Y) (.of d) = Graph.memOps.entries (two a b X' Y) (.of d) := by
  simp only [Graph.memOps, Graph.ops, Graph.entries, Mem.ops, Mem.triples, Element.of, two, BMap.get?_insert_ne _ _ h]

theorem two_self {a b : Str} (X Y Y' : BSet Trip) : Graph.memOps.entries (two a b X Y) (.of a) = Graph.memOps.entries (two a b X Y') (.of a) := by
  simp only [Graph.memOps, Graph.ops, Graph.entries, Mem.ops, Mem.triples, Element.of, two, BMap.get?_insert_self]

theorem ignores {β : Type} {a b d : Str} (f : BSet Trip → BSet Trip → β)
    (h : ∀ X Y X' Y', Graph.memOps.entries (two a b X Y) (.of d) = Graph.memOps.entries (two a b X' Y') (.of d) → f X Y = f X' Y') : IgnoresOne f := by
  by_cases e : d = a
  · subst e
    exact .inr fun X Y Y' => h _ _ _ _ (two_self X Y Y')
  · exact .inl fun X X' Y => h _ _ _ _ (two_ne X Y X' e)

end OneSource
open OneSource

namespace OneSource

theorem contents_of {f : Mem → Res Value × Mem} {A : List (Str × Origin)} (h : ∀ (s : Mem) (v : Value), (f s).1 = .ok v → Assigned s (f s).2 A) (c : Str) :
    ∃ d : Str, ∀ (s s' : Mem) (v v' : Value), (f s).1 = .ok v → (f s').1 = .ok v' → Graph.memOps.entries s (.of d) = Graph.memOps.entries s' (.of d) →
      Graph.memOps.entries (f s).2 (.of c) = Graph.memOps.entries (f s').2 (.of c) := by
  cases e : A.lookup c with
  | none =>
    refine ⟨c, fun s s' v v' h1 h2 k => ?_⟩
    have a := h s v h1 c
    have b := h s' v' h2 c
    rw [e] at a b
    exact (a.trans k).trans b.symm
  | some src =>
    refine ⟨source c src, fun s s' v v' h1 h2 k => ?_⟩
    have a := h s v h1 c
    have b := h s' v' h2 c
    rw [e] at a b
    obtain ⟨n, a1, a2⟩ := a
    obtain ⟨n', b1, b2⟩ := b
    rw [a1, b1, origin_same a2 b2 k]

theorem answer_of {f : Mem → Res Value × Mem} {reply : Reply} (h : ∀ (s : Mem) (v : Value), (f s).1 = .ok v → reply.Is s (.ok v)) :
    ∃ d : Str, ∀ (s s' : Mem) (v v' : Value), (f s).1 = .ok v → (f s').1 = .ok v' →
      Graph.memOps.entries s (.of d) = Graph.memOps.entries s' (.of d) → v = v' := by
  cases reply with
  | fails => exact ⟨[], fun s _ v _ h1 _ _ => absurd rfl (h s v h1 v)⟩
  | value w =>
    refine ⟨[], fun s s' v v' h1 h2 _ => ?_⟩
    have a : Res.ok v = Res.ok w := h s v h1
    have b : Res.ok v' = Res.ok w := h s' v' h2
    cases a; cases b; rfl
  | network src =>
    refine ⟨source [] src, fun s s' v v' h1 h2 k => ?_⟩
    obtain ⟨n, a1, a2⟩ := h s v h1
    obtain ⟨n', b1, b2⟩ := h s' v' h2
    cases a1; cases b1
    rw [origin_same a2 b2 k]

end OneSource

/-- C104: for a script and a collection there is one collection that alone decides what the former holds after the script has succeeded. -/
theorem C104_contents (script c : Str) : ∃ d : Str, ∀ (s s' : Mem) (v v' : Value),
    (run Graph.memOps common script s).1 = .ok v → (run Graph.memOps common script s').1 = .ok v' →
    Graph.memOps.entries s (.of d) = Graph.memOps.entries s' (.of d) →
    Graph.memOps.entries (run Graph.memOps common script s).2 (.of c) = Graph.memOps.entries (run Graph.memOps common script s').2 (.of c) := by
  obtain ⟨A, _, h⟩ := C103_script script
  exact contents_of (fun s v e => (h s v e).1) c

/-- C104: for a script there is one collection that alone decides what it answers when it succeeds. -/
theorem C104_answer (script : Str) : ∃ d : Str, ∀ (s s' : Mem) (v v' : Value),
    (run Graph.memOps common script s).1 = .ok v → (run Graph.memOps common script s').1 = .ok v' →
    Graph.memOps.entries s (.of d) = Graph.memOps.entries s' (.of d) → v = v' := by
  obtain ⟨_, reply, h⟩ := C103_script script
  exact answer_of fun s v e => (h s v e).2

/-- C104, for any list of calls without `assert-fail`. -/
theorem C104_calls (calls : List Call) (h : ∀ c ∈ calls, c.name.text ≠ lit "assert-fail" ∧ WithoutAll (lit "assert-fail") c.args) :
    (∀ c : Str, ∃ d : Str, ∀ (s s' : Mem) (v v' : Value), (runCalls Graph.memOps common calls s).1 = .ok v → (runCalls Graph.memOps common calls s').1 = .ok v' →
      Graph.memOps.entries s (.of d) = Graph.memOps.entries s' (.of d) →
      Graph.memOps.entries (runCalls Graph.memOps common calls s).2 (.of c) = Graph.memOps.entries (runCalls Graph.memOps common calls s').2 (.of c)) ∧
    ∃ d : Str, ∀ (s s' : Mem) (v v' : Value), (runCalls Graph.memOps common calls s).1 = .ok v → (runCalls Graph.memOps common calls s').1 = .ok v' →
      Graph.memOps.entries s (.of d) = Graph.memOps.entries s' (.of d) → v = v' := by
  obtain ⟨A, reply, k⟩ := C103_calls_single calls h
  exact ⟨contents_of fun s v e => (k s v e).1, answer_of fun s v e => (k s v e).2⟩

/-- C104, for scripts run one after another. -/
theorem C104_sequence (scripts : List Str) (c : Str) : ∃ d : Str, ∀ s s' : Mem,
    (∀ before q after, scripts = before ++ q :: after → ∃ v, (run Graph.memOps common q (afterScripts Graph.memOps before s)).1 = .ok v) →
    (∀ before q after, scripts = before ++ q :: after → ∃ v, (run Graph.memOps common q (afterScripts Graph.memOps before s')).1 = .ok v) →
    Graph.memOps.entries s (.of d) = Graph.memOps.entries s' (.of d) →
    Graph.memOps.entries (afterScripts Graph.memOps scripts s) (.of c) = Graph.memOps.entries (afterScripts Graph.memOps scripts s') (.of c) := by
  obtain ⟨A, h⟩ := C103_scripts scripts
  open Classical in
  obtain ⟨d, k⟩ := contents_of
    (f := fun s => (if ∀ before q after, scripts = before ++ q :: after → ∃ v, (run Graph.memOps common q (afterScripts Graph.memOps before s)).1 = .ok v
      then .ok emptyNet else .panic, afterScripts Graph.memOps scripts s)) (A := A) (fun s v e => by
        simp only at e
        split at e
        · rename_i g; exact h s g
        · cases e) c
  exact ⟨d, fun s s' h1 h2 e => k s s' emptyNet emptyNet (by simp only; rw [if_pos h1]) (by simp only; rw [if_pos h2]) e⟩

/-- C104: what a script answers from two collections it makes from one of them. -/
theorem C104_answers_from (script : Str) {a b : Str} (hab : a ≠ b) (f : BSet Trip → BSet Trip → Network) (h : AnswersFrom script a b f) : IgnoresOne f := by
  obtain ⟨d, hd⟩ := C104_answer script
  refine ignores (a := a) (b := b) (d := d) f fun X Y X' Y' k => ?_
  have := hd _ _ _ _ (h _ _ _ (two_a a b X Y) (two_b hab X Y)) (h _ _ _ (two_a a b X' Y') (two_b hab X' Y')) k
  injection this

/-- C104: what a script stores from two collections it makes from one of them. -/
theorem C104_stores_from (script c : Str) {a b : Str} (hab : a ≠ b) (f : BSet Trip → BSet Trip → BSet Trip) (h : StoresFrom script a b c f) : IgnoresOne f := by
  obtain ⟨d, hd⟩ := C104_contents script c
  refine ignores (a := a) (b := b) (d := d) f fun X Y X' Y' k => ?_
  obtain ⟨⟨v, h1⟩, h2⟩ := h _ _ _ (two_a a b X Y) (two_b hab X Y)
  obtain ⟨⟨v', h3⟩, h4⟩ := h _ _ _ (two_a a b X' Y') (two_b hab X' Y')
  have ent : ∀ {s : Mem} {S : BSet Trip}, Mem.ops.triples s c = .ok S → Graph.memOps.entries s (.of c) = .ok (S.map Graph.tripToEntry) := by
    intro s S e
    simp only [Graph.memOps, Graph.ops, Graph.entries, Element.of, e, Res.map]
  have := hd _ _ _ _ h1 h3 k
  rw [ent h2, ent h4] at this
  simp only [Res.ok.injEq] at this
  refine BSet.ext fun t => ?_
  have key : ∀ {S S' : BSet Trip}, S.map Graph.tripToEntry = S'.map Graph.tripToEntry → t ∈ S → t ∈ S' := by
    intro S S' e ht
    obtain ⟨t', ht', e'⟩ := BSet.mem_map.mp (e ▸ BSet.mem_map.mpr ⟨t, ht, rfl⟩ : Graph.tripToEntry t ∈ S'.map Graph.tripToEntry)
    cases Graph.tripToEntry_inj e'
    exact ht'
  exact ⟨key this, key this.symm⟩

/-- C104: so no script answers with all that is in one collection or another, or stores it, although it is a union of two networks and there is a command `union`. -/
theorem C104_no_union (script : Str) {a b : Str} (hab : a ≠ b) (c : Str) :
    ¬ AnswersFrom script a b (fun X Y => (BSet.union X Y).map Graph.tripToEntry) ∧ ¬ StoresFrom script a b c BSet.union := by
  have no : ∀ {β : Type} (g : BSet Trip → β), g ∅ ≠ g (BSet.ofList [⟨lit "x", lit "r", lit "y"⟩]) → ¬ IgnoresOne fun X Y => g (BSet.union X Y) := by
    rintro β g hg (h | h)
    · exact hg (h ∅ (BSet.ofList [⟨lit "x", lit "r", lit "y"⟩]) ∅)
    · exact hg (h ∅ ∅ (BSet.ofList [⟨lit "x", lit "r", lit "y"⟩]))
  exact ⟨fun h => no (fun S => S.map Graph.tripToEntry) (by decide +kernel) (C104_answers_from script hab _ h),
    fun h => no id (by decide +kernel) (C104_stores_from script c hab _ h)⟩

/-- C104: over LMDB, where a `let` of a collection there is adds to it, a script does unite two collections, as long as there are identifiers left. -/
theorem C104_heed_union {a b : Str} (ha : StringBody a) (hb : StringBody b) : ∃ script : Str, ∀ (l : List Op) (X Y : BSet Trip),
    let s := (runOps Heed.ops Heed.new l).2
    Heed.ops.triples s a = .ok X → Heed.ops.triples s b = .ok Y → costOf l + 1 + 3 * Y.toList.length ≤ 2 ^ 64 →
      (run (Graph.ops Heed.ops) common script s).1 = .ok (.network ((BSet.union X Y).map Graph.tripToEntry)) := by
  obtain ⟨script, hm⟩ := (C92_scripts [Rearrange.move (a, b), call "read" [.element (.of a)]]).mpr (by
    intro c hc
    simp only [List.mem_cons, List.not_mem_nil, or_false] at hc
    rcases hc with rfl | rfl
    · exact Rearrange.sayable_move ha hb
    · refine ⟨sayable_of (plain_stringBody (by unfold Special; decide)), fun v hv => ?_⟩
      simp only [call, List.mem_cons, List.not_mem_nil, or_false] at hv
      subst hv
      exact sayable_of ha)
  refine ⟨script, fun l X Y hX hY hr => ?_⟩
  have read_of : ∀ {s : Heed} {c : Str} {S : BSet Trip}, Heed.ops.triples s c = .ok S →
      (Graph.ops Heed.ops).entries s (.of c) = .ok (S.map Graph.tripToEntry) := by
    intro s c S e
    simp only [Graph.ops, Graph.entries, Element.of, e, Res.map]
  have hle := length_map_le Graph.tripToEntry Y
  obtain ⟨s', h1, h2⟩ := C59_let_existing_heed_merges l (.of a) (.of a) (Y.map Graph.tripToEntry) (X.map Graph.tripToEntry) rfl
    (by rw [common_read]; simp only [Eval.read, read_of hX]) (by omega)
  rw [common_let] at h1
  generalize (runOps Heed.ops Heed.new l).2 = s at *
  have hY2 := Props.read_form (read_of hY)
  have m := Rearrange.move_run_on (Graph.ops Heed.ops) (a, b) s (read_of hY)
  rw [run_means _ _ hm, runCalls, runCallsLoop, m]
  simp only [h1]
  have h2 : runCallsLoop (Graph.ops Heed.ops) common [call "read" [.element (.of a)]] (.network ∅) s' = _ := h2
  rw [h2]
  simp only [Res.ok.injEq, Value.network.injEq]
  rw [hY2]
  refine BSet.ext fun e => ?_
  simp only [BSet.mem_union, BSet.mem_map]
  constructor
  · rintro (⟨t, h, rfl⟩ | ⟨t, h, rfl⟩)
    · exact ⟨t, .inl h, rfl⟩
    · exact ⟨t, .inr h, rfl⟩
  · rintro ⟨t, h | h, rfl⟩
    · exact .inl ⟨t, h, rfl⟩
    · exact .inr ⟨t, h, rfl⟩

/-- Two collections, and room. -/
def uniteOps : List Op := [.addCollection (lit "a"), .addTriples (lit "a") (BSet.ofList [⟨lit "x", lit "r", lit "y"⟩]),
  .addCollection (lit "b"), .addTriples (lit "b") (BSet.ofList [⟨lit "u", lit "r", lit "v"⟩])]

example : ∃ script, (run (Graph.ops Heed.ops) common script (runOps Heed.ops Heed.new uniteOps).2).1 =
    .ok (.network ((BSet.ofList [⟨lit "u", lit "r", lit "v"⟩, ⟨lit "x", lit "r", lit "y"⟩]).map Graph.tripToEntry)) := by
  obtain ⟨script, h⟩ := C104_heed_union (a := lit "a") (b := lit "b") (plain_stringBody (by unfold Special; decide)) (plain_stringBody (by unfold Special; decide))
  exact ⟨script, h uniteOps (BSet.ofList [⟨lit "x", lit "r", lit "y"⟩]) (BSet.ofList [⟨lit "u", lit "r", lit "v"⟩]) (by decide +kernel) (by decide +kernel) (by decide +kernel)⟩

example := C104_sequence swapScripts (lit "a")
example := C104_calls swapCalls (by
  intro c hc
  simp only [swapCalls, List.mem_cons, List.not_mem_nil, or_false] at hc
  rcases hc with rfl | rfl | rfl | rfl <;> simp only [WithoutAll, Without] <;> decide +kernel)

/-- A script that makes its answer from two collections, ignoring one. -/
example : AnswersFrom (lit "read a") (lit "a") (lit "b") fun X _ => X.map Graph.tripToEntry := by
  intro s X Y hX hY
  have hm : Means (lit "read a") [call "read" [.element (.of (lit "a"))]] := ⟨_, rfl, Parser.parse_ok_iff.mp (by decide +kernel)⟩
  rw [run_means _ _ hm]
  have e := congrArg Prod.fst (common_read Graph.memOps (.of (lit "a")) s)
  rw [e]
  simp only [Eval.read, Graph.memOps, Graph.ops, Graph.entries, Element.of, hX, Res.map]

/-- A script that stores one of two collections under another name. -/
example : StoresFrom (lit "let c (read b)") (lit "a") (lit "b") (lit "c") fun _ Y => Y := by
  intro s X Y hX hY
  have hm : Means (lit "let c (read b)") ([(lit "c", lit "b")].map Rearrange.move) := ⟨_, rfl, Parser.parse_ok_iff.mp (by decide +kernel)⟩
  have he : Graph.memOps.entries s (.of (lit "b")) = .ok (Y.map Graph.tripToEntry) := by
    simp only [Graph.memOps, Graph.ops, Graph.entries, Element.of, hY, Res.map]
  rw [run_means _ _ hm]
  have k := Rearrange.move_run (lit "c", lit "b") s he
  have e : runCalls Graph.memOps common ([(lit "c", lit "b")].map Rearrange.move) s = letStore Graph.memOps (.of (lit "c")) (Y.map Graph.tripToEntry) s := by
    rw [runCalls, List.map_cons, List.map_nil, runCallsLoop, k, memLet]
    rfl
  rw [e, memLet]
  refine ⟨⟨_, rfl⟩, ?_⟩
  simp only [Mem.ops, Mem.triples, BMap.get?_insert_self, map_back]
  exact congrArg _ (BSet.ext fun t => by simp [BSet.mem_union])

/-- The inner `assert-equal` is always a failure; `let` runs only if the `read` before it has succeeded. -/
def nestCalls : List Call :=
  let el (w : String) : Value := .element (.of (lit w))
  [⟨.of (lit "assert-fail"), [.quote [el "assert-equal", .quote [el "read", el "b"],
    .quote [el "assert-equal", .quote [el "let", el "a", .network (BSet.ofList [.role (.of (lit "p")) (.of (lit "q")) (.of (lit "r"))])], el "x"]]]⟩]

/-- C104: calls that nest a quote in the quote of an `assert-fail`, which no script does, are not bound by this: whether `a` is kept can depend on whether there is a `b`. -/
theorem C104_nested : ∃ calls : List Call, (∀ s : Mem, ∃ v, (runCalls Graph.memOps common calls s).1 = .ok v) ∧
    ¬ ∃ d : Str, ∀ s s' : Mem, Graph.memOps.entries s (.of d) = Graph.memOps.entries s' (.of d) →
      Graph.memOps.entries (runCalls Graph.memOps common calls s).2 (.of (lit "a")) =
        Graph.memOps.entries (runCalls Graph.memOps common calls s').2 (.of (lit "a")) := by
  refine ⟨nestCalls, fun s => ?_, ?_⟩
  · have g1 : Commands.get? (common (σ := Mem)) (lit "assert-fail") = some ⟨_, .builtin .assertFail⟩ := rfl
    have g2 : Commands.get? (common (σ := Mem)) (lit "assert-equal") = some ⟨_, .builtin .assertEqual⟩ := rfl
    have g3 : Commands.get? (common (σ := Mem)) (lit "read") = some ⟨_, .builtin .read⟩ := rfl
    have g4 : Commands.get? (common (σ := Mem)) (lit "let") = some ⟨_, .builtin .let_⟩ := rfl
    refine ⟨.network ∅, ?_⟩
    simp only [nestCalls, runCalls, runCallsLoop, runCall, Element.of, g1, g2, g3, g4, runFun, evalArg, runQuote, Eval.read, memLet, assertEqualResult]
    rcases e : Graph.memOps.entries s ⟨lit "b", none, none⟩ with n | m | _
    · simp [emptyNet]
    · simp [emptyNet]
    · simp [Graph.memOps, Graph.ops, Graph.entries, Mem.ops, Mem.triples] at e
      split at e <;> simp [Res.map] at e
  · rintro ⟨d, h⟩
    let one (X : BSet Trip) : Mem := ⟨(∅ : BMap Str (BSet Trip)).insert (lit "a") X⟩
    let t : BSet Trip := BSet.ofList [⟨lit "x", lit "r", lit "y"⟩]
    by_cases e : d = lit "a"
    · subst e
      have := h (one ∅) (two (lit "a") (lit "b") ∅ ∅) (by decide +kernel)
      revert this
      decide +kernel
    · have := h (one ∅) (one t) (by
        simp only [one, Graph.memOps, Graph.ops, Graph.entries, Mem.ops, Mem.triples, Element.of, BMap.get?_insert_ne _ _ e])
      revert this
      decide +kernel

end Props
end Verif
