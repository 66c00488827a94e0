import Verif.Props.Evaluator
/-!
# C20–C26: the standard commands
-/
namespace Verif
namespace Props
open Spec Eval

variable {σ : Type u} {τ : Type v}

theorem common_cmd (L : LigOps σ) (name : String) (args : List Value) (s : σ) (doc : Str) (b : Builtin)
    (h : (lit name, ⟨doc, .builtin b⟩) ∈ (common : Commands σ)) :
    runCalls L common [call name args] s = runFun L common (.builtin b) args s := by
  rw [runCalls_single, runCall]
  have : (common : Commands σ).get? (call name args).name.text = some ⟨doc, .builtin b⟩ := lookup_of_mem common_wf h
  rw [this]; rfl

/-! ## C20: union is set union -/

/-- C20: `union a b` yields the network of exactly the entries of either, and changes nothing. -/
theorem C20_union (L : LigOps σ) (a b : Network) (s : σ) :
    ∃ n, runCalls L common [call "union" [.network a, .network b]] s = (.ok (.network n), s) ∧ ∀ e, e ∈ n ↔ e ∈ a ∨ e ∈ b := by
  refine ⟨a.union b, ?_, fun e => BSet.mem_union⟩
  rw [common_cmd L "union" _ s _ .union (by simp [common]; rfl)]
  simp [runFun, Eval.union]

theorem isUnion_iff (a b n : Network) : IsUnion a b n ↔ ∀ e, e ∈ n ↔ e ∈ a ∨ e ∈ b := by
  constructor
  · intro h
    obtain ⟨m, hm, hm'⟩ := C20_union Graph.memOps a b Graph.memNew
    have := h Mem Graph.memOps Graph.memNew
    rw [hm] at this
    simp only [Prod.mk.injEq, Res.ok.injEq, Value.network.injEq, and_true] at this
    subst this; exact hm'
  · intro h σ L s
    obtain ⟨m, hm, hm'⟩ := C20_union L a b s
    rw [hm]
    have : m = n := BSet.ext fun e => by rw [hm', h]
    rw [this]

/-- C20: union is commutative, associative and idempotent and has the empty network as unit. -/
theorem C20_union_laws (a b c ab bc : Network) (h1 : IsUnion a b ab) (h2 : IsUnion b c bc) :
    IsUnion b a ab ∧ (∀ n, IsUnion ab c n ↔ IsUnion a bc n) ∧ IsUnion a a a ∧ IsUnion a ∅ a ∧ IsUnion ∅ a a := by
  simp only [isUnion_iff] at *
  refine ⟨fun e => by rw [h1]; exact or_comm, fun n => ?_, by simp, by simp, by simp⟩
  constructor
  · intro h e; rw [h, h1, h2, or_assoc]
  · intro h e; rw [h, h1, h2, or_assoc]

/-- C20: with anything but two arguments `union` is an error; with two arguments of which one is no network it panics. -/
theorem C20_union_misuse (L : LigOps σ) (args : List Value) (s : σ) :
    (args.length ≠ 2 → runCalls L common [call "union" args] s = (.err (lit "union takes two arguments."), s)) ∧
    (∀ a b, args = [a, b] → ((∀ n, a ≠ .network n) ∨ (∀ n, b ≠ .network n)) →
      runCalls L common [call "union" args] s = (.panic, s)) := by
  rw [common_cmd L "union" _ s _ .union (by simp [common]; rfl)]
  simp only [runFun]
  constructor
  · intro h
    match args with
    | [] => rfl
    | [_] => rfl
    | [_, _] => exact absurd rfl h
    | _ :: _ :: _ :: _ => rfl
  · rintro a b rfl h
    cases a <;> cases b <;> simp_all [Eval.union]

example : IsUnion sampleNet (BSet.ofList [.ext (.of (lit "x")) (.of (lit "y"))])
    (BSet.ofList (sampleNet.toList ++ [.ext (.of (lit "x")) (.of (lit "y"))])) := by
  rw [isUnion_iff]; intro e; rw [BSet.mem_ofList, BSet.mem_ofList, List.mem_append, BSet.mem_def]

/-! ## C21, C22: filter -/

theorem common_filter (L : LigOps σ) (c a r b : Element) (s : σ) :
    runCalls L common [call "filter" [.element c, .element a, .element r, .element b]] s =
      (match L.filter s c (.role a b r) with
        | .ok entries => .ok (.network entries)
        | _ => .panic, s) := by
  rw [common_cmd L "filter" _ s _ .filter (by simp [common]; rfl)]
  simp only [runFun, filterCmd]
  cases L.filter s c (.role a b r) <;> rfl

/-- C21: `filter c a r b` on an existing collection, without named variables, returns exactly the entries of the collection whose
subject, role and object equal the given texts, `?` matching anything; the store is unchanged. -/
theorem C21_filter_exact (s : Mem) (c a r b : Element) (hc : Listed Mem.ops s c.text)
    (ha : ¬ IsVar a.text) (hr : ¬ IsVar r.text) (hb : ¬ IsVar b.text) :
    ∃ all sel, Graph.memOps.entries s c = .ok all ∧
      runCalls Graph.memOps common [call "filter" [.element c, .element a, .element r, .element b]] s = (.ok (.network sel), s) ∧
      ∀ e, e ∈ sel ↔ e ∈ all ∧ TextMatches a.text (parts e).1 ∧ TextMatches r.text (parts e).2.1 ∧
        TextMatches b.text (parts e).2.2 := by
  obtain ⟨all, sel, h1, h2, h3⟩ := C36_filter_agrees_with_entries s c (.role a b r) ⟨ha, hr, hb⟩ hc
  refine ⟨all, sel, h1, ?_, h3⟩
  rw [common_filter, h2]

/-- `C21_filter_exact` applies to a collection a script has made and a pattern with a hole. -/
example := C21_filter_exact (runCalls Graph.memOps common [exLet] Graph.memNew).2 (.of (lit "G")) (.of (lit "a")) (.of (lit ":")) (.of (lit "?"))
  ⟨[lit "G"], by decide +kernel, by simp⟩ (by rintro ⟨c, cs, h⟩; revert h; simp [lit]) (by rintro ⟨c, cs, h⟩; revert h; simp [lit])
  (by rintro ⟨c, cs, h⟩; revert h; simp [lit])

/-- C21: filtering a collection that does not exist panics. -/
theorem C21_filter_missing (s : Mem) (c a r b : Element) (hc : ¬ Listed Mem.ops s c.text) :
    runCalls Graph.memOps common [call "filter" [.element c, .element a, .element r, .element b]] s = (.panic, s) := by
  rw [common_filter, (C36_missing s c _ hc).2]

example : runCalls Graph.memOps common
    [exLet, call "filter" [.element (.of (lit "G")), .element (.of (lit "a")), .element (.of (lit ":")), .element (.of (lit "?"))]]
      Graph.memNew =
    (.ok (.network (BSet.ofList [.ext (.of (lit "a")) (.of (lit "b")), .ext (.of (lit "a")) (.of (lit "c"))])),
      (runCalls Graph.memOps common [exLet] Graph.memNew).2) := by decide +kernel

theorem slot_any_iff {x : Str} : (∃ v, Graph.checkValue x = .var v) ↔ IsVar x := by
  constructor
  · rintro ⟨v, h⟩; exact Graph.checkValue_var h
  · rintro ⟨c, cs, rfl⟩
    exact ⟨c :: cs, by simp [Graph.checkValue]⟩

theorem textMatches_of_slot {x y : Str} (h : SlotMatches (Graph.checkValue x) y) : TextMatches x y ∧ ¬ IsVar x := by
  by_cases hv : IsVar x
  · obtain ⟨v, hv⟩ := slot_any_iff.mpr hv
    rw [hv] at h; exact absurd h (by simp [SlotMatches])
  · exact ⟨(Graph.slotMatches_checkValue hv).mp h, hv⟩

theorem isVar_not_slot {x y : Str} (hv : IsVar x) : ¬ SlotMatches (Graph.checkValue x) y := fun h => (textMatches_of_slot h).2 hv

/-- A variable in front of the pattern, or behind slots that match, is reached. -/
theorem reaches_iff {a r b : Element} {t : Trip} :
    Mem.Reaches (Graph.patternToQuery (.role a b r)) t ↔ ReachesVar a.text r.text b.text (Graph.tripToEntry t) := by
  rw [Graph.patternToQuery_eq]
  simp only [Mem.Reaches, ReachesVar, Graph.parts_tripToEntry, slot_any_iff,
    show parts (.role a b r) = (a.text, r.text, b.text) from rfl]
  by_cases ha : IsVar a.text
  · simp [ha]
  · rw [Graph.slotMatches_checkValue ha]
    by_cases hr : IsVar r.text
    · simp only [ha, hr, false_or, true_or, and_true]
      exact ⟨fun h => h.elim id (·.1), .inl⟩
    · rw [Graph.slotMatches_checkValue hr]; simp [ha, hr]

/-- C22: on an existing collection, a `filter` panics exactly if the matching of some entry reaches a named variable; otherwise it
returns exactly the entries that are instances of the pattern for some assignment of its variables. -/
theorem C22_named_variables (s : Mem) (c a r b : Element) (hc : Listed Mem.ops s c.text) :
    ∃ all, Graph.memOps.entries s c = .ok all ∧
      ((∃ e ∈ all, ReachesVar a.text r.text b.text e) →
        runCalls Graph.memOps common [call "filter" [.element c, .element a, .element r, .element b]] s = (.panic, s)) ∧
      ((¬ ∃ e ∈ all, ReachesVar a.text r.text b.text e) → ∃ sel,
        runCalls Graph.memOps common [call "filter" [.element c, .element a, .element r, .element b]] s = (.ok (.network sel), s) ∧
        ∀ e, e ∈ sel ↔ e ∈ all ∧ ∃ ρ, PatInst ρ a.text (parts e).1 ∧ PatInst ρ r.text (parts e).2.1 ∧ PatInst ρ b.text (parts e).2.2) := by
  obtain ⟨q, hq⟩ := Option.isSome_iff_exists.mp (((Mem.agrees s).listed c.text).mp hc)
  obtain ⟨S, hS, rfl⟩ := Mem.world_some.mp hq
  refine ⟨S.map Graph.tripToEntry, ?_, ?_, ?_⟩
  · show (Mem.triples s c.text).map _ = _
    simp [Mem.triples, hS, Res.map]
  · rintro ⟨e, he, hr⟩
    rw [BSet.mem_map] at he
    obtain ⟨t, ht, rfl⟩ := he
    rw [common_filter]
    have hp : Mem.filterLoop (Graph.patternToQuery (.role a b r)) S.toList ∅ = .panic :=
      (Mem.filterLoop_panic _ _ _).mpr ⟨t, ht, reaches_iff.mpr hr⟩
    simp [Graph.memOps, Graph.ops, Graph.filter, Mem.ops, Mem.filter, hS, hp, Res.map, Res.errTodo]
  · intro hn
    have hn' : ¬ ∃ t ∈ S.toList, Mem.Reaches (Graph.patternToQuery (.role a b r)) t := by
      rintro ⟨t, ht, h⟩
      exact hn ⟨_, BSet.mem_map.mpr ⟨t, ht, rfl⟩, reaches_iff.mp h⟩
    obtain ⟨res, hr, hr'⟩ := Mem.filterLoop_ok _ _ hn' ∅
    refine ⟨res.map Graph.tripToEntry, ?_, ?_⟩
    · rw [common_filter]
      simp [Graph.memOps, Graph.ops, Graph.filter, Mem.ops, Mem.filter, hS, hr, Res.map, Res.errTodo]
    · intro e
      rw [BSet.mem_map, BSet.mem_map]
      constructor
      · rintro ⟨t, ht, rfl⟩
        rw [hr'] at ht
        simp only [BSet.not_mem_empty, false_or] at ht
        refine ⟨⟨t, ht.1, rfl⟩, fun _ => [], ?_⟩
        rw [Graph.patternToQuery_eq] at ht
        obtain ⟨_, h1, h2, h3⟩ := ht
        rw [Graph.parts_tripToEntry]
        have conv : ∀ {x y : Str}, SlotMatches (Graph.checkValue x) y → PatInst (fun _ => []) x y := by
          intro x y h
          obtain ⟨h | h, hv⟩ := textMatches_of_slot h
          · exact .inl h
          · exact .inr (.inr ⟨hv, h⟩)
        exact ⟨conv h1, conv h2, conv h3⟩
      · rintro ⟨⟨t, ht, rfl⟩, ρ, h1, h2, h3⟩
        refine ⟨t, ?_, rfl⟩
        rw [hr']
        refine .inr ⟨ht, ?_⟩
        have hnr : ¬ Mem.Reaches (Graph.patternToQuery (.role a b r)) t := fun h => hn' ⟨t, ht, h⟩
        rw [reaches_iff] at hnr
        simp only [ReachesVar, Graph.parts_tripToEntry, not_or, not_and] at hnr
        rw [Graph.parts_tripToEntry] at h1 h2 h3
        have conv : ∀ {x y : Str}, ¬ IsVar x → PatInst ρ x y → TextMatches x y := by
          rintro x y hv (h | ⟨v, hv', _⟩ | ⟨_, h⟩)
          · exact .inl h
          · exact absurd hv' hv
          · exact .inr h
        have m1 := conv hnr.1 h1
        have m2 := conv (hnr.2 m1).1 h2
        have m3 := conv ((hnr.2 m1).2 m2) h3
        rw [Graph.patternToQuery_eq]
        exact ⟨(Graph.slotMatches_checkValue hnr.1).mpr m1, (Graph.slotMatches_checkValue (hnr.2 m1).1).mpr m2,
          (Graph.slotMatches_checkValue ((hnr.2 m1).2 m2)).mpr m3⟩

example : runCalls Graph.memOps common
      [exLet, call "filter" [.element (.of (lit "G")), .element (.of (lit "z")), .element (.of (lit ":")), .element (.of (lit "?x"))]]
      Graph.memNew = (.ok (.network ∅), (runCalls Graph.memOps common [exLet] Graph.memNew).2) ∧
    (runCalls Graph.memOps common
      [exLet, call "filter" [.element (.of (lit "G")), .element (.of (lit "a")), .element (.of (lit ":")), .element (.of (lit "?x"))]]
      Graph.memNew).1 = .panic := by decide +kernel

/-! ## C23: assert-equal -/

/-- C23: `assert-equal a b` evaluates `a`, then `b` on the store that left, and succeeds exactly if both yield the same value. -/
theorem C23_assert_equal_iff (L : LigOps σ) (a b : Value) (s s' : σ) (v : Value) :
    runCalls L common [call "assert-equal" [a, b]] s = (.ok v, s') ↔
      v = .network ∅ ∧ ∃ w s1, argValue L common a s = (.ok w, s1) ∧ argValue L common b s1 = (.ok w, s') := by
  rw [common_cmd L "assert-equal" _ s _ .assertEqual (by simp [common]; rfl)]
  simp only [runFun, evalArg_eq]
  rcases argValue L common a s with ⟨x, s1⟩
  cases x with
  | ok l =>
    rcases h2 : argValue L common b s1 with ⟨y, s2⟩
    cases y with
    | ok r =>
      simp only [h2, assertEqualResult]
      by_cases e : l = r
      · subst e
        simp only [if_pos, emptyNet, Prod.mk.injEq, Res.ok.injEq]
        constructor
        · rintro ⟨rfl, rfl⟩; exact ⟨rfl, l, s1, ⟨rfl, rfl⟩, h2⟩
        · rintro ⟨rfl, w, s3, ⟨rfl, rfl⟩, h⟩
          rw [h2] at h; cases h; exact ⟨rfl, rfl⟩
      · simp only [if_neg e, Prod.mk.injEq, reduceCtorEq, false_and, false_iff, Res.ok.injEq]
        rintro ⟨_, w, s3, ⟨rfl, rfl⟩, h⟩
        rw [h2] at h; cases h; exact e rfl
    | err m =>
      simp only [h2, Prod.mk.injEq, reduceCtorEq, false_and, false_iff, Res.ok.injEq]
      rintro ⟨_, w, s3, ⟨rfl, rfl⟩, h⟩
      rw [h2] at h; cases h
    | panic =>
      simp only [h2, Prod.mk.injEq, reduceCtorEq, false_and, false_iff, Res.ok.injEq]
      rintro ⟨_, w, s3, ⟨rfl, rfl⟩, h⟩
      rw [h2] at h; cases h
  | err m => simp
  | panic => simp

/-- C23: when both yield values that differ, the failure shows both, left first. -/
theorem C23_message (L : LigOps σ) (a b l r : Value) (s s1 s2 : σ) (ha : argValue L common a s = (.ok l, s1))
    (hb : argValue L common b s1 = (.ok r, s2)) (hne : l ≠ r) :
    runCalls L common [call "assert-equal" [a, b]] s =
      (.err (lit "Assertion failed, " ++ Display.value l ++ lit " != " ++ Display.value r), s2) := by
  rw [common_cmd L "assert-equal" _ s _ .assertEqual (by simp [common]; rfl)]
  simp only [runFun, evalArg_eq, ha, hb, assertEqualResult, if_neg hne]

/-- C23: an argument that does not evaluate makes `assert-equal` fail the same way. -/
theorem C23_failing_argument (L : LigOps σ) (a b : Value) (s s1 : σ) (x : Res Value) (hx : ∀ v, x ≠ .ok v) :
    (argValue L common a s = (x, s1) → runCalls L common [call "assert-equal" [a, b]] s = (x, s1)) ∧
    (∀ l s0, argValue L common a s = (.ok l, s0) → argValue L common b s0 = (x, s1) →
      runCalls L common [call "assert-equal" [a, b]] s = (x, s1)) := by
  rw [common_cmd L "assert-equal" _ s _ .assertEqual (by simp [common]; rfl)]
  simp only [runFun, evalArg_eq]
  constructor
  · intro h
    rw [h]
    cases x with
    | ok v => exact absurd rfl (hx v)
    | err m => rfl
    | panic => rfl
  · intro l s0 h1 h2
    rw [h1]; simp only [h2]
    cases x with
    | ok v => exact absurd rfl (hx v)
    | err m => rfl
    | panic => rfl

/-- C23: when running the arguments has no effect the order does not matter for success. -/
theorem C23_symmetric (L : LigOps σ) (a b : Value) (s : σ) (ha : (argValue L common a s).2 = s) (hb : (argValue L common b s).2 = s) :
    runCalls L common [call "assert-equal" [a, b]] s = (.ok (.network ∅), s) ↔
      runCalls L common [call "assert-equal" [b, a]] s = (.ok (.network ∅), s) := by
  have key : ∀ a b, (argValue L common a s).2 = s → (argValue L common b s).2 = s →
      runCalls L common [call "assert-equal" [a, b]] s = (.ok (.network ∅), s) →
      runCalls L common [call "assert-equal" [b, a]] s = (.ok (.network ∅), s) := by
    intro a b ha hb h
    rw [C23_assert_equal_iff] at h ⊢
    obtain ⟨_, w, s1, h1, h2⟩ := h
    have e1 : s1 = s := by rw [h1] at ha; exact ha
    subst e1
    exact ⟨rfl, w, s1, h2, h1⟩
  exact ⟨key a b ha hb, key b a hb ha⟩

/-- A quote, and the value it yields. -/
def exQuote : Value := .quote [.element (.of (lit "id")), .element (.of (lit "x"))]
example : argValue Graph.memOps common exQuote Graph.memNew = (.ok (.element (.of (lit "x"))), Graph.memNew) ∧
    runCalls Graph.memOps common [call "assert-equal" [exQuote, .element (.of (lit "x"))]] Graph.memNew =
      (.ok (.network ∅), Graph.memNew) ∧
    runCalls Graph.memOps common [call "assert-equal" [exQuote, .element (.of (lit "y"))]] Graph.memNew =
      (.err (lit "Assertion failed, \"x\" != \"y\""), Graph.memNew) := by decide +kernel

/-! ## C24: assert-fail -/

/-- C24: `assert-fail (quote)` succeeds exactly if running the quote errs; the effects of the quote up to its failure remain. -/
theorem C24_assert_fail_iff (L : LigOps σ) (q : List Value) (s s' : σ) (v : Value) :
    runCalls L common [call "assert-fail" [.quote q]] s = (.ok v, s') ↔
      v = .network ∅ ∧ ∃ m, argValue L common (.quote q) s = (.err m, s') := by
  rw [common_cmd L "assert-fail" _ s _ .assertFail (by simp [common]; rfl)]
  simp only [runFun, evalArg_eq]
  rcases argValue L common (.quote q) s with ⟨x, s1⟩
  cases x with
  | ok w => simp
  | err m =>
    simp only [emptyNet, Prod.mk.injEq, Res.ok.injEq, Res.err.injEq]
    constructor
    · rintro ⟨rfl, rfl⟩; exact ⟨rfl, m, rfl, rfl⟩
    · rintro ⟨rfl, m', _, rfl⟩; exact ⟨rfl, rfl⟩
  | panic => simp

/-- C24: it errs if the quote succeeds, and a panic is not caught. -/
theorem C24_assert_fail_otherwise (L : LigOps σ) (q : List Value) (s s1 : σ) :
    (∀ w, argValue L common (.quote q) s = (.ok w, s1) →
      runCalls L common [call "assert-fail" [.quote q]] s = (.err (lit "Expected failure."), s1)) ∧
    (argValue L common (.quote q) s = (.panic, s1) → runCalls L common [call "assert-fail" [.quote q]] s = (.panic, s1)) := by
  rw [common_cmd L "assert-fail" _ s _ .assertFail (by simp [common]; rfl)]
  simp only [runFun, evalArg_eq]
  exact ⟨fun w h => by rw [h], fun h => by rw [h]⟩

/-- C24: anything but one quote is an error. -/
theorem C24_assert_fail_misuse (L : LigOps σ) (args : List Value) (s : σ) (h : ∀ q, args ≠ [.quote q]) :
    runCalls L common [call "assert-fail" args] s =
      (.err (lit "`assert-fail` function expected to be passed a Quote."), s) := by
  rw [common_cmd L "assert-fail" _ s _ .assertFail (by simp [common]; rfl)]
  match args with
  | [] => simp only [runFun]
  | [.quote q] => exact absurd rfl (h q)
  | [.element _] => simp only [runFun]
  | [.network _] => simp only [runFun]
  | _ :: _ :: _ => simp only [runFun]

/-- The quoted call here stores a collection and then fails; the collection stays. -/
example : (runCalls Graph.memOps common [call "assert-fail" [.quote [.element (.of (lit "assert-equal")),
      .quote [.element (.of (lit "let")), .element (.of (lit "G")), .network sampleNet], .element (.of (lit "x"))]]] Graph.memNew).1 =
        .ok (.network ∅) ∧
    (runCalls Graph.memOps common [call "assert-fail" [.quote [.element (.of (lit "assert-equal")),
      .quote [.element (.of (lit "let")), .element (.of (lit "G")), .network sampleNet], .element (.of (lit "x"))]]] Graph.memNew).2 =
        (runCalls Graph.memOps common [exLet] Graph.memNew).2 := by decide +kernel

/-! ## C25: hash-map iteration order -/

/-- C25: the result and effect of any script are the same for every iteration order of the command table. -/
theorem C25_order_independent (L : LigOps σ) (cmds cmds' : Commands σ) (hw : cmds.WF) (hp : cmds.Perm cmds')
    (calls : List Call) (s : σ) : runCalls L cmds calls s = runCalls L cmds' calls s := by
  have hL : LigRel (fun s t : σ => s = t) L L := by
    constructor <;> intros <;> simp_all
  have hf : ∀ f : CmdFun σ, FunRel (fun s t : σ => s = t) f f := by
    intro f
    cases f with
    | builtin b => rfl
    | host h => intro args s t e; subst e; exact ⟨rfl, rfl⟩
  have := runCallsLoop_rel (R := fun s t : σ => s = t) (L := L) (L' := L) (cmds := cmds) (cmds' := cmds') hL
    (fun n => by
      rw [get_perm hw hp n]
      cases cmds'.get? n with
      | none => trivial
      | some c => exact hf c.fn)
    (docs_perm hp) calls emptyNet s s rfl
  exact Prod.ext this.1 this.2

/-- C25: `docs` lists exactly one entry per command, with its name and documentation. -/
theorem C25_docs_exact (L : LigOps σ) (cmds : Commands σ) (hw : cmds.WF) (s : σ)
    (h : ∃ d, (lit "docs", ⟨d, .builtin .docs⟩) ∈ cmds) :
    ∃ n, runCalls L cmds [call "docs" []] s = (.ok (.network n), s) ∧ n.toList.length = cmds.length ∧
      ∀ e, e ∈ n ↔ ∃ name c, (name, c) ∈ cmds ∧ e = .role (.of name) (.of c.doc) (.of (lit "docString")) := by
  obtain ⟨d, hd⟩ := h
  rw [runCalls_single, runCall]
  have : cmds.get? (call "docs" []).name.text = some ⟨d, .builtin .docs⟩ := lookup_of_mem hw hd
  rw [this]
  refine ⟨_, by simp only [call, runFun, docs]; rfl, ?_, ?_⟩
  · have hmem := fun e => mem_docs cmds e ∅
    generalize hn : cmds.foldl (fun (results : Network) p =>
      results.insert (.role (.of p.1) (.of p.2.doc) (.of (lit "docString")))) ∅ = n at *
    have hperm : n.toList.Perm (cmds.map fun p => Entry.role (.of p.1) (.of p.2.doc) (.of (lit "docString"))) := by
      apply (List.perm_ext_iff_of_nodup n.nodup ?_).mpr
      · intro e
        rw [← BSet.mem_def, hmem]
        simp [eq_comm]
      · have h0 : (cmds.map Prod.fst).Nodup := hw
        rw [List.nodup_iff_pairwise_ne, List.pairwise_map] at h0 ⊢
        exact h0.imp (fun h e => h (by simpa [Element.of] using congrArg (fun x => match x with
          | Entry.role f _ _ => f.text | .ext f _ => f.text | .notExt f _ => f.text) e))
    simpa using hperm.length_eq
  · intro e
    rw [mem_docs]
    simp

/-- C25: `docs` as a host gets it from the standard table in any iteration order: nine entries, with these texts. -/
theorem C25_standard_docs (L : LigOps σ) (cmds : Commands σ) (hp : (common : Commands σ).Perm cmds) (s : σ) :
    ∃ n, runCalls L cmds [call "docs" []] s = (.ok (.network n), s) ∧ n.toList.length = 9 ∧
      ∀ e, e ∈ n ↔ ∃ p ∈ [
        ("assert-equal", "Check if two arguments are equal (quotes are evaluated before comparing) and fail if they are not equal."),
        ("assert-fail", "Accept a quote and run it. If the quote results in a failure continue otherwise fail."),
        ("ignore", "Ignore all arguments to this command and return an empty network."),
        ("let", "Set a named network."), ("read", "Read a network."), ("id", "Return a value."),
        ("docs", "Get a list of commands and a description."), ("union", "Combine two networks."), ("filter", "Filter a network.")],
        e = .role (.of (lit p.1)) (.of (lit p.2)) (.of (lit "docString")) := by
  have hw : (common : Commands σ).WF := by
    show ([lit "assert-equal", lit "assert-fail", lit "ignore", lit "let", lit "read", lit "id", lit "docs", lit "union", lit "filter"]).Nodup
    decide
  rw [← C25_order_independent L common cmds hw hp]
  obtain ⟨n, h1, h2, h3⟩ := C25_docs_exact L (common : Commands σ) hw s ⟨lit "Get a list of commands and a description.", by unfold common; repeat (first | exact List.mem_cons_self | apply List.mem_cons_of_mem)⟩
  refine ⟨n, h1, h2, fun e => (h3 e).trans ?_⟩
  have key : ∀ (ps : List (String × String)) (cs : Commands σ), cs.map (fun p => (p.1, p.2.doc)) = ps.map (fun p => (lit p.1, lit p.2)) →
      ((∃ name c, (name, c) ∈ cs ∧ e = .role (.of name) (.of c.doc) (.of (lit "docString"))) ↔
        ∃ p ∈ ps, e = .role (.of (lit p.1)) (.of (lit p.2)) (.of (lit "docString"))) := by
    intro ps cs hm
    constructor
    · rintro ⟨name, c, hc, he⟩
      have : (name, c.doc) ∈ ps.map (fun p => (lit p.1, lit p.2)) := hm ▸ List.mem_map.mpr ⟨(name, c), hc, rfl⟩
      obtain ⟨p, hp', hq⟩ := List.mem_map.mp this
      simp only [Prod.mk.injEq] at hq
      exact ⟨p, hp', by rw [he, hq.1, hq.2]⟩
    · rintro ⟨p, hp', he⟩
      have : (lit p.1, lit p.2) ∈ cs.map (fun p => (p.1, p.2.doc)) := hm ▸ List.mem_map.mpr ⟨p, hp', rfl⟩
      obtain ⟨⟨name, c⟩, hc, hq⟩ := List.mem_map.mp this
      simp only [Prod.mk.injEq] at hq
      exact ⟨name, c, hc, by rw [he, ← hq.1, ← hq.2]⟩
  exact key _ _ rfl

example : (common : Commands Mem).WF ∧ (common : Commands Mem).Perm common.reverse ∧
    ∃ d, (lit "docs", ⟨d, .builtin .docs⟩) ∈ (common : Commands Mem) :=
  ⟨common_wf, (List.reverse_perm _).symm, _, by simp [common]; rfl⟩

/-! ## C26: stores that behave the same -/

/-- C26: if two implementations of the store interface are related by a relation that every operation preserves with equal answers
(and the tables' host functions do too), every list of calls yields equal results on related stores and leaves them related. -/
theorem C26_parametric_calls (R : σ → τ → Prop) (L : LigOps σ) (L' : LigOps τ) (hL : LigRel R L L')
    (cmds : Commands σ) (cmds' : Commands τ) (hc : TableRel R cmds cmds') (calls : List Call) (s : σ) (t : τ) (h : R s t) :
    OutRel R (runCalls L cmds calls s) (runCalls L' cmds' calls t) := by
  have hget : ∀ n, match cmds.get? n, cmds'.get? n with
      | some c, some c' => FunRel R c.fn c'.fn
      | none, none => True
      | _, _ => False := by
    intro n
    unfold Commands.get?
    induction cmds generalizing cmds' with
    | nil =>
      cases cmds' with
      | nil => trivial
      | cons p l => exact absurd hc (by simp [TableRel])
    | cons p l ih =>
      cases cmds' with
      | nil => exact absurd hc (by simp [TableRel])
      | cons p' l' =>
        obtain ⟨n1, c1⟩ := p
        obtain ⟨n2, c2⟩ := p'
        obtain ⟨rfl, _, hf, hr⟩ := hc
        rw [List.lookup_cons, List.lookup_cons]
        by_cases e : n = n1
        · subst e; simp only [BEq.rfl]; exact hf
        · have e' : (n == n1) = false := by simpa using e
          simp only [e']; exact ih l' hr
  have hdocs : ∀ args, docs cmds args = docs cmds' args := by
    intro args
    unfold docs
    split
    · congr 2
      clear hget
      generalize (∅ : Network) = acc
      induction cmds generalizing cmds' acc with
      | nil =>
        cases cmds' with
        | nil => rfl
        | cons p l => exact absurd hc (by simp [TableRel])
      | cons p l ih =>
        cases cmds' with
        | nil => exact absurd hc (by simp [TableRel])
        | cons p' l' =>
          obtain ⟨n1, c1⟩ := p
          obtain ⟨n2, c2⟩ := p'
          obtain ⟨rfl, hd, _, hr⟩ := hc
          simp only [List.foldl_cons, hd]
          exact ih l' hr _
    · rfl
  exact runCallsLoop_rel hL hget hdocs _ emptyNet s t h

/-- C26: and so does every script. -/
theorem C26_parametric (R : σ → τ → Prop) (L : LigOps σ) (L' : LigOps τ) (hL : LigRel R L L')
    (cmds : Commands σ) (cmds' : Commands τ) (hc : TableRel R cmds cmds') (script : Str) (s : σ) (t : τ) (h : R s t) :
    OutRel R (run L cmds script s) (run L' cmds' script t) := by
  unfold run
  split
  · exact ⟨rfl, h⟩
  · exact ⟨rfl, h⟩
  · split
    · exact ⟨rfl, h⟩
    · exact ⟨rfl, h⟩
    · exact C26_parametric_calls R L L' hL cmds cmds' hc _ s t h

/-- The standard table is related to itself for every relation. -/
theorem C26_standard_table (R : σ → τ → Prop) : TableRel R (common : Commands σ) (common : Commands τ) := by
  simp [common, TableRel, FunRel]

/-- A relation that is not equality: a store that also keeps its previous state is related to the plain store by its first part. -/
def doubled : LigOps (Mem × Mem) where
  collections s := Graph.memOps.collections s.1
  addCollection s c := ((Graph.memOps.addCollection s.1 c).1, ((Graph.memOps.addCollection s.1 c).2, s.1))
  removeCollection s c := ((Graph.memOps.removeCollection s.1 c).1, ((Graph.memOps.removeCollection s.1 c).2, s.1))
  entries s c := Graph.memOps.entries s.1 c
  addEntries s c es := ((Graph.memOps.addEntries s.1 c es).1, ((Graph.memOps.addEntries s.1 c es).2.1, s.1), es)
  removeEntries s c es := ((Graph.memOps.removeEntries s.1 c es).1, ((Graph.memOps.removeEntries s.1 c es).2.1, s.1), es)
  filter s c p := Graph.memOps.filter s.1 c p

example : LigRel (fun (s : Mem) (t : Mem × Mem) => t.1 = s) Graph.memOps doubled := by
  constructor <;> intros <;> simp_all [doubled]

end Props
end Verif
