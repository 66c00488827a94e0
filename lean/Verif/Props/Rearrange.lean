import Verif.Props.Assign
/-!
# C103: every rearrangement of collections is what some script does
-/
namespace Verif
namespace Props
open Spec Eval

namespace Rearrange
open Assign

/-- `let d (read c)`. -/
def move (p : Str × Str) : Call := ⟨.of (lit "let"), [.element (.of p.1), .quote [.element (.of (lit "read")), .element (.of p.2)]]⟩

theorem sayable_move {p : Str × Str} (h1 : StringBody p.1) (h2 : StringBody p.2) : SayableCall (move p) := by
  refine ⟨sayable_of (plain_stringBody (by unfold Special; decide)), fun v hv => ?_⟩
  simp only [move, List.mem_cons, List.not_mem_nil, or_false] at hv
  rcases hv with rfl | rfl
  · exact sayable_of h1
  · intro w hw
    simp only [List.mem_cons, List.not_mem_nil, or_false] at hw
    rcases hw with rfl | rfl
    · exact sayable_of (plain_stringBody (by unfold Special; decide))
    · exact sayable_of h2

theorem move_run_on (L : LigOps σ) (p : Str × Str) (s : σ) {n : Network} (h : L.entries s (.of p.2) = .ok n) :
    runCall L common (move p) s = letStore L (.of p.1) n s := by
  have k : runQuote L common [.element (.of (lit "read")), .element (.of p.2)] s = (.ok (.network n), s) := by
    show (Eval.read L [.element (.of p.2)] s, s) = _
    simp only [Eval.read, h]
  have g : Commands.get? (common (σ := σ)) (lit "let") = some ⟨_, .builtin .let_⟩ := rfl
  simp only [runCall, move, Element.of, g, runFun, evalArg]
  simp only [Element.of] at k
  rw [k]

theorem move_run (p : Str × Str) (s : Mem) {n : Network} (h : Graph.memOps.entries s (.of p.2) = .ok n) :
    runCall Graph.memOps common (move p) s = letStore Graph.memOps (.of p.1) n s := move_run_on Graph.memOps p s h

/-- Moves none of which writes what another reads. -/
theorem moves_run : ∀ (l : List (Str × Str)) (s : Mem), (∀ p ∈ l, ∀ q ∈ l, p.2 ≠ q.1) → (l.map Prod.fst).Nodup →
    (∀ p ∈ l, ∃ n, Graph.memOps.entries s (.of p.2) = .ok n) →
    ∃ s', runCallsLoop Graph.memOps common (l.map move) emptyNet s = (.ok emptyNet, s') ∧
      ∀ c, Graph.memOps.entries s' (.of c) = Graph.memOps.entries s (.of ((l.lookup c).getD c))
  | [], s, _, _, _ => ⟨s, rfl, fun _ => rfl⟩
  | p :: l, s, hd, hn, hs => by
    obtain ⟨n, hp⟩ := hs p List.mem_cons_self
    have hst : stored n = n := stored_part (s := s) (c := p.2) (keep := fun _ => True) ⟨n, hp, fun e => by simp⟩
    have hl := fun c => let_entries s (.of p.1) n c
    rw [List.map_cons, List.nodup_cons] at hn
    have src : ∀ q ∈ l, Graph.memOps.entries (letStore Graph.memOps (.of p.1) n s).2 (.of q.2) = Graph.memOps.entries s (.of q.2) := by
      intro q hq
      rw [hl, if_neg (hd q (List.mem_cons_of_mem _ hq) p List.mem_cons_self)]
    obtain ⟨s', h1, h2⟩ := moves_run l (letStore Graph.memOps (.of p.1) n s).2
      (fun a ha b hb => hd a (List.mem_cons_of_mem _ ha) b (List.mem_cons_of_mem _ hb)) hn.2
      (fun q hq => by rw [src q hq]; exact hs q (List.mem_cons_of_mem _ hq))
    refine ⟨s', ?_, fun c => ?_⟩
    · rw [List.map_cons, runCallsLoop, move_run p s hp]
      have e := let_ok s (.of p.1) n
      rcases k : letStore Graph.memOps (.of p.1) n s with ⟨r, s1⟩
      rw [k] at e h1
      cases e
      exact h1
    · rw [h2, List.lookup_cons]
      by_cases e : c = p.1
      · subst e
        have no : l.lookup p.1 = none := by
          cases e : l.lookup p.1 with
          | none => rfl
          | some x =>
            obtain ⟨l1, l2, rfl, _⟩ := List.lookup_eq_some_iff.mp e
            exact absurd (List.mem_map_of_mem (f := Prod.fst) (List.mem_append_right _ List.mem_cons_self)) hn.1
        simp only [no, Option.getD_none, beq_self_eq_true, Option.getD_some]
        rw [hl, if_pos rfl, hst, hp]
      · have : (c == p.1) = false := by simpa using e
        simp only [this]
        cases k : l.lookup c with
        | none => rw [Option.getD_none, hl, if_neg e]
        | some x =>
          obtain ⟨l1, l2, rfl, _⟩ := List.lookup_eq_some_iff.mp k
          exact src (c, x) (List.mem_append_right _ List.mem_cons_self)

def spareName (k : Nat) (c : Str) : Str := List.replicate k 'a' ++ c

theorem spare_inj {k : Nat} {c d : Str} (h : spareName k c = spareName k d) : c = d := List.append_cancel_left h

theorem spare_body (k : Nat) {c : Str} (h : StringBody c) : StringBody (spareName k c) := by
  induction k with
  | zero => exact h
  | succ k ih =>
    have : ¬ Special 'a' := by unfold Special; decide
    exact .plain (Nat.le_of_not_lt fun h => this (.inl h)) (fun e => this (.inr (.inl e))) (fun e => this (.inr (.inr e))) ih

theorem bound (l : List Str) : ∃ C, ∀ x ∈ l, x.length < C := by
  induction l with
  | nil => exact ⟨0, nofun⟩
  | cons x l ih =>
    obtain ⟨C, hC⟩ := ih
    refine ⟨x.length + C + 1, fun y hy => ?_⟩
    rcases List.mem_cons.mp hy with rfl | hy
    · omega
    · have := hC y hy; omega

theorem lookup_to (k : Nat) (R : List (Str × Str)) (c : Str) : (R.map fun p => (spareName k p.1, p.2)).lookup (spareName k c) = R.lookup c := by
  induction R with
  | nil => rfl
  | cons p R ih =>
    rw [List.map_cons, List.lookup_cons, List.lookup_cons, ih]
    by_cases e : c = p.1
    · subst e; simp
    · have h1 : (c == p.1) = false := by simpa using e
      have h2 : (spareName k c == spareName k p.1) = false := by simpa using fun h => e (spare_inj h)
      simp only [h1, h2]

theorem lookup_from (k : Nat) (R : List (Str × Str)) (c : Str) :
    (R.map fun p => (p.1, spareName k p.1)).lookup c = (R.lookup c).map fun _ => spareName k c := by
  induction R with
  | nil => rfl
  | cons p R ih =>
    rw [List.map_cons, List.lookup_cons, List.lookup_cons, ih]
    by_cases e : c = p.1
    · subst e; simp
    · have h1 : (c == p.1) = false := by simpa using e
      simp only [h1]

theorem lookup_none {R : List (Str × Str)} {c : Str} (h : ∀ p ∈ R, p.1 ≠ c) : R.lookup c = none := by
  cases e : R.lookup c with
  | none => rfl
  | some x =>
    obtain ⟨l1, l2, rfl, _⟩ := List.lookup_eq_some_iff.mp e
    exact absurd rfl (h (c, x) (List.mem_append_right _ List.mem_cons_self))

end Rearrange
open Rearrange

/-- C103: given, for some collections, from which collection each is to get its content, there is a script that does just that at once on every in-memory store
that has those it reads from, but for some spare collections with names that can be kept from any finite number of names. -/
theorem C103_rearrange (R : List (Str × Str)) (hw : ∀ p ∈ R, StringBody p.1 ∧ StringBody p.2) (hn : (R.map Prod.fst).Nodup) (kept : List Str) :
    ∃ (script : Str) (spare : List Str), (∀ c ∈ spare, c ∉ kept) ∧ ∀ s : Mem, (∀ p ∈ R, ∃ n, Graph.memOps.entries s (.of p.2) = .ok n) →
      (run Graph.memOps common script s).1 = .ok (.network ∅) ∧
      ∀ c, c ∉ spare → Graph.memOps.entries (run Graph.memOps common script s).2 (.of c) =
        match R.lookup c with
        | some d => Graph.memOps.entries s (.of d)
        | none => Graph.memOps.entries s (.of c) := by
  obtain ⟨k, hk⟩ := bound (kept ++ R.map Prod.fst ++ R.map Prod.snd)
  have long : ∀ c d, c ∈ kept ++ R.map Prod.fst ++ R.map Prod.snd → spareName k d ≠ c := by
    intro c d hc e
    have := hk c hc
    rw [← e, spareName, List.length_append, List.length_replicate] at this
    omega
  let to := R.map fun p => (spareName k p.1, p.2)
  let from_ := R.map fun p => (p.1, spareName k p.1)
  obtain ⟨script, hm⟩ := (C92_scripts ((to ++ from_).map move)).mpr (by
    intro c hc
    obtain ⟨p, hp, rfl⟩ := List.mem_map.mp hc
    rcases List.mem_append.mp hp with hp | hp
    · obtain ⟨q, hq, rfl⟩ := List.mem_map.mp hp
      exact sayable_move (spare_body k (hw q hq).1) (hw q hq).2
    · obtain ⟨q, hq, rfl⟩ := List.mem_map.mp hp
      exact sayable_move (hw q hq).1 (spare_body k (hw q hq).1))
  refine ⟨script, R.map fun p => spareName k p.1, ?_, fun s hs => ?_⟩
  · intro c hc
    obtain ⟨p, hp, rfl⟩ := List.mem_map.mp hc
    exact fun h => long _ p.1 (by simp [h]) rfl
  · have sd : ∀ p ∈ R, p.2 ∈ kept ++ R.map Prod.fst ++ R.map Prod.snd := fun p hp => List.mem_append_right _ (List.mem_map_of_mem hp)
    have fd : ∀ p ∈ R, p.1 ∈ kept ++ R.map Prod.fst ++ R.map Prod.snd := fun p hp =>
      List.mem_append_left _ (List.mem_append_right _ (List.mem_map_of_mem hp))
    obtain ⟨s1, a1, a2⟩ := moves_run to s (by
        intro p hp q hq
        obtain ⟨p', hp', rfl⟩ := List.mem_map.mp hp
        obtain ⟨q', hq', rfl⟩ := List.mem_map.mp hq
        exact fun e => long _ q'.1 (sd p' hp') e.symm)
      (by
        rw [List.map_map]
        rw [List.Nodup, List.pairwise_map] at hn ⊢
        exact hn.imp fun h e => h (spare_inj e))
      (by
        intro p hp
        obtain ⟨p', hp', rfl⟩ := List.mem_map.mp hp
        exact hs p' hp')
    have got : ∀ p ∈ R, Graph.memOps.entries s1 (.of (spareName k p.1)) = Graph.memOps.entries s (.of ((R.lookup p.1).getD (spareName k p.1))) := by
      intro p hp
      rw [a2, lookup_to]
    have there : ∀ p ∈ R, ∃ d, R.lookup p.1 = some d ∧ ∃ n, Graph.memOps.entries s (.of d) = .ok n := by
      intro p hp
      cases e : R.lookup p.1 with
      | none => exact absurd (List.lookup_eq_none_iff.mp e p hp) (by simp)
      | some d =>
        obtain ⟨l1, l2, h, _⟩ := List.lookup_eq_some_iff.mp e
        exact ⟨d, rfl, hs (p.1, d) (h ▸ List.mem_append_right _ List.mem_cons_self)⟩
    obtain ⟨s2, b1, b2⟩ := moves_run from_ s1 (by
        intro p hp q hq
        obtain ⟨p', hp', rfl⟩ := List.mem_map.mp hp
        obtain ⟨q', hq', rfl⟩ := List.mem_map.mp hq
        exact fun e => long _ p'.1 (fd q' hq') e)
      (by rw [List.map_map]; exact hn)
      (by
        intro p hp
        obtain ⟨p', hp', rfl⟩ := List.mem_map.mp hp
        obtain ⟨d, h, h'⟩ := there p' hp'
        show ∃ n, Graph.memOps.entries s1 (.of (spareName k p'.1)) = .ok n
        rw [got p' hp', h]
        exact h')
    have e : run Graph.memOps common script s = (.ok (.network ∅), s2) := by
      rw [run_means _ _ hm, runCalls, List.map_append, runCallsLoop_append, a1]
      exact b1
    refine ⟨by rw [e], fun c hc => ?_⟩
    rw [e, b2, lookup_from]
    cases h : R.lookup c with
    | none =>
      simp only [Option.map_none, Option.getD_none]
      rw [a2, lookup_none (R := to) (c := c) (by
        intro p hp e
        obtain ⟨q, hq, rfl⟩ := List.mem_map.mp hp
        exact hc (e ▸ List.mem_map_of_mem (f := fun p : Str × Str => spareName k p.1) hq))]
      rfl
    | some d =>
      simp only [Option.map_some, Option.getD_some]
      rw [a2, lookup_to, h]
      rfl

/-- Three collections handed round. -/
example := C103_rearrange [(lit "a", lit "b"), (lit "b", lit "c"), (lit "c", lit "a")]
  (by
    have h : ∀ x : Char, x = 'a' ∨ x = 'b' ∨ x = 'c' → StringBody [x] := by
      rintro x (rfl | rfl | rfl) <;> exact plain_stringBody (by unfold Special; decide)
    intro p hp
    simp only [List.mem_cons, List.not_mem_nil, or_false] at hp
    rcases hp with rfl | rfl | rfl
    · exact ⟨h 'a' (by simp), h 'b' (by simp)⟩
    · exact ⟨h 'b' (by simp), h 'c' (by simp)⟩
    · exact ⟨h 'c' (by simp), h 'a' (by simp)⟩)
  (by decide) [lit "log"]

/-- The store `swapStore` has what an exchange of `a` and `b` reads. -/
example : ∃ script, Graph.memOps.entries (run Graph.memOps common script swapStore).2 (.of (lit "a")) = Graph.memOps.entries swapStore (.of (lit "b")) ∧
    Graph.memOps.entries (run Graph.memOps common script swapStore).2 (.of (lit "b")) = Graph.memOps.entries swapStore (.of (lit "a")) := by
  have ha : StringBody (lit "a") := plain_stringBody (by unfold Special; decide)
  have hb : StringBody (lit "b") := plain_stringBody (by unfold Special; decide)
  obtain ⟨script, spare, h1, h2⟩ := C103_rearrange [(lit "a", lit "b"), (lit "b", lit "a")]
    (by
      intro p hp
      simp only [List.mem_cons, List.not_mem_nil, or_false] at hp
      rcases hp with rfl | rfl
      · exact ⟨ha, hb⟩
      · exact ⟨hb, ha⟩)
    (by decide) [lit "a", lit "b"]
  have h := (h2 swapStore (by
    intro p hp
    simp only [List.mem_cons, List.not_mem_nil, or_false] at hp
    rcases hp with rfl | rfl
    · exact ⟨BSet.ofList [.role (.of (lit "u")) (.of (lit "v")) (.of (lit "r")), .role (.of (lit "u")) (.of (lit "v")) (.of (lit "s"))], by decide +kernel⟩
    · exact ⟨BSet.ofList [.role (.of (lit "x")) (.of (lit "y")) (.of (lit "r"))], by decide +kernel⟩)).2
  exact ⟨script, h _ fun hc => h1 _ hc (by simp), h _ fun hc => h1 _ hc (by simp)⟩

end Props
end Verif
