import Verif.Spec.Snapshot
import Verif.Props.Effects
import Verif.Props.ScriptsCross
/-!
# C97: what is stored under a name is a snapshot, and filters compose
-/
namespace Verif
namespace Props
open Spec Eval

/-- What is read is in parser form. -/
theorem read_forms {T : TripsOps τ} {s : τ} {c : Element} {n : Network} (h : (Graph.ops T).entries s c = .ok n) :
    ∀ e ∈ n, ParserForm e := by
  intro e he
  have h' : (T.triples s c.text).map (fun ts => ts.map Graph.tripToEntry) = .ok n := h
  cases ht : T.triples s c.text with
  | ok ts =>
    rw [ht] at h'
    have : ts.map Graph.tripToEntry = n := Res.ok.inj h'
    rw [← this, BSet.mem_map] at he
    obtain ⟨t, _, rfl⟩ := he
    exact Graph.parserForm_trip t
  | err m => rw [ht] at h'; cases h'
  | panic => rw [ht] at h'; cases h'

theorem read_form {T : TripsOps τ} {s : τ} {c : Element} {n : Network} (h : (Graph.ops T).entries s c = .ok n) : n.map canon = n :=
  C17_parser_form_unchanged n (read_forms h)

theorem read_iff (L : LigOps σ) (c : Element) (s : σ) (n : Network) :
    runCalls L common [call "read" [.element c]] s = (.ok (.network n), s) ↔ L.entries s c = .ok n := by
  rw [common_read, Eval.read]
  cases L.entries s c <;> simp

theorem let_of_quote (L : LigOps σ) (d : Element) (name : String) (args : List Value) (s s1 : σ) (n : Network)
    (h : runCalls L common [call name args] s = (.ok (.network n), s1)) :
    runCalls L common [call "let" [.element d, .quote (.element (.of (lit name)) :: args)]] s =
      runCalls L common [call "let" [.element d, .network n]] s1 := by
  rw [C17_let_quote]
  have : argValue L common (.quote (.element (.of (lit name)) :: args)) s = (.ok (.network n), s1) := h
  rw [this]

theorem entries_same_text (T : TripsOps τ) (s : τ) {c d : Element} (h : c.text = d.text) :
    (Graph.ops T).entries s c = (Graph.ops T).entries s d := by
  show (T.triples s c.text).map _ = (T.triples s d.text).map _
  rw [h]

theorem letsIn_let {name d : Element} {n : Network} (h : CallLets name (call "let" [.element d, .network n])) : name.text = d.text := by
  rcases h with ⟨_, rest, h⟩ | h
  · simp only [call, List.cons.injEq, Value.element.injEq] at h
    rw [h.1]
  · simp [call, LetsInList, LetsIn] at h

theorem inv_after {T : TripsOps τ} {I : τ → Prop} {b : Bool} {world : τ → World} {P : Op → Prop} (R : Refines T I b world P)
    {t : τ} (hi : I t) (calls : List Call) : I (runCalls (Graph.ops T) common calls t).2 :=
  (calls_keep R.inv (fun _ => True) calls (fun _ _ _ _ _ => trivial) (fun _ _ _ _ _ _ => trivial) t hi trivial).1

/-- The common part: after a `let` that answered and reads back `m`, the name reads `m` until it is let again. -/
theorem kept_after_let {T : TripsOps τ} {I : τ → Prop} {b : Bool} {world : τ → World} {P : Op → Prop} (R : Refines T I b world P)
    {s s' : τ} (hi : I s) {d : Element} {n m : Network}
    (hlet : runCalls (Graph.ops T) common [call "let" [.element d, .network n]] s = (.ok (.network ∅), s'))
    (hread : runCalls (Graph.ops T) common [call "read" [.element d]] s' = (.ok (.network m), s')) :
    (∀ c : Element, c.text ≠ d.text → (Graph.ops T).entries s' c = (Graph.ops T).entries s c) ∧
    ∀ calls, NeverLets d calls → let s2 := (runCalls (Graph.ops T) common calls s').2
      runCalls (Graph.ops T) common [call "read" [.element d]] s2 = (.ok (.network m), s2) := by
  have hi' : I s' := by
    have := inv_after R hi [call "let" [.element d, .network n]]
    rwa [hlet] at this
  constructor
  · intro c hc
    have := (frame_of R hi [call "let" [.element d, .network n]] c (fun x hx name hl => by
      rw [List.mem_singleton.mp hx] at hl
      rw [letsIn_let hl]; exact fun e => hc e.symm)).1
    rwa [hlet] at this
  · intro calls hn
    rw [read_iff] at hread ⊢
    rw [(frame_of R hi' calls d hn).1]; exact hread

/-- **C97, in memory.** `let d (read c)` stores what `c` holds at that moment, also when `d` exists or is `c` itself.  What is stored is a
snapshot: whatever runs afterwards, as long as it does not `let` `d`, `d` reads the same; and `c` itself is not changed. -/
theorem C97_copy_mem (s : Mem) (c d : Element) (n : Network)
    (hr : runCalls Graph.memOps common [call "read" [.element c]] s = (.ok (.network n), s)) :
    ∃ s', runCalls Graph.memOps common [copyTo d c] s = (.ok (.network ∅), s') ∧
      runCalls Graph.memOps common [call "read" [.element c]] s' = (.ok (.network n), s') ∧
      ∀ calls, NeverLets d calls → let s2 := (runCalls Graph.memOps common calls s').2
        runCalls Graph.memOps common [call "read" [.element d]] s2 = (.ok (.network n), s2) := by
  obtain ⟨s', h1, h2⟩ := C17_let_read s d d n rfl
  rw [read_form ((read_iff _ _ _ _).mp hr)] at h2
  obtain ⟨k1, k2⟩ := kept_after_let mem_refines trivial h1 h2
  refine ⟨s', ?_, ?_, k2⟩
  · rw [copyTo, let_of_quote _ _ _ _ _ _ _ hr]; exact h1
  · rw [read_iff]
    by_cases e : c.text = d.text
    · rw [show Graph.memOps.entries s' c = Graph.memOps.entries s' d from entries_same_text _ _ e]
      exact (read_iff _ _ _ _).mp h2
    · exact (k1 c e).trans ((read_iff _ _ _ _).mp hr)

/-- **C97, LMDB store.** The same for a new (legal) name; a name that is there already gets the entries of `c` in addition. -/
theorem C97_copy_heed (l : List Op) (c d : Element) (n : Network)
    (hr : runCalls (Graph.ops Heed.ops) common [call "read" [.element c]] (runOps Heed.ops Heed.new l).2 =
      (.ok (.network n), (runOps Heed.ops Heed.new l).2))
    (hl : Heed.lmdbKey d.text = true) (hroom : costOf l + 1 + 3 * n.toList.length ≤ 2 ^ 64) (old : Network)
    (hold : ¬ Listed Heed.ops (runOps Heed.ops Heed.new l).2 d.text ∧ old = ∅ ∨
      runCalls (Graph.ops Heed.ops) common [call "read" [.element d]] (runOps Heed.ops Heed.new l).2 =
        (.ok (.network old), (runOps Heed.ops Heed.new l).2)) :
    ∃ s', runCalls (Graph.ops Heed.ops) common [copyTo d c] (runOps Heed.ops Heed.new l).2 = (.ok (.network ∅), s') ∧
      runCalls (Graph.ops Heed.ops) common [call "read" [.element c]] s' = (.ok (.network n), s') ∧
      ∀ calls, NeverLets d calls → let s2 := (runCalls (Graph.ops Heed.ops) common calls s').2
        runCalls (Graph.ops Heed.ops) common [call "read" [.element d]] s2 = (.ok (.network (old.union n)), s2) := by
  have hf := read_form ((read_iff _ _ _ _).mp hr)
  have key : ∃ s', runCalls (Graph.ops Heed.ops) common [call "let" [.element d, .network n]] (runOps Heed.ops Heed.new l).2 =
        (.ok (.network ∅), s') ∧
      runCalls (Graph.ops Heed.ops) common [call "read" [.element d]] s' = (.ok (.network (old.union n)), s') := by
    rcases hold with ⟨hn, rfl⟩ | ho
    · obtain ⟨s', h1, h2⟩ := C59_let_new_heed l d d n rfl hn hl hroom
      rw [hf] at h2
      refine ⟨s', h1, ?_⟩
      have : (∅ : Network).union n = n := by apply BSet.ext; intro e; simp
      rw [this]; exact h2
    · obtain ⟨s', h1, h2⟩ := C59_let_existing_heed_merges l d d n old rfl ho hroom
      rw [hf] at h2
      exact ⟨s', h1, h2⟩
  obtain ⟨s', h1, h2⟩ := key
  obtain ⟨k1, k2⟩ := kept_after_let heed_refines (heed_good l) h1 h2
  refine ⟨s', ?_, ?_, k2⟩
  · rw [copyTo, let_of_quote _ _ _ _ _ _ _ hr]; exact h1
  · rw [read_iff]
    by_cases e : c.text = d.text
    · rw [entries_same_text _ _ e]
      have hold' : old = n := by
        rcases hold with ⟨hn, _⟩ | ho
        · exfalso
          have hp := (C59_read_missing l c).2.1 (by rw [e]; exact hn)
          rw [hr] at hp; cases congrArg Prod.fst hp
        · rw [read_iff] at ho hr
          rw [← entries_same_text _ _ e, hr] at ho
          exact (Res.ok.inj ho).symm
      have : old.union n = n := by rw [hold']; apply BSet.ext; intro e; simp
      rw [← this]
      exact (read_iff _ _ _ _).mp h2
    · exact (k1 c e).trans ((read_iff _ _ _ _).mp hr)

/-- **C97, DuckDB store.** The same for a name that is not there (for one that is, `let` panics: C59). -/
theorem C97_copy_duck (l : List Op) (c d : Element) (n : Network)
    (hr : runCalls (Graph.ops Duck.ops) common [call "read" [.element c]] (runOps Duck.ops Duck.new l).2 =
      (.ok (.network n), (runOps Duck.ops Duck.new l).2))
    (hn : ¬ Listed Duck.ops (runOps Duck.ops Duck.new l).2 d.text) :
    ∃ s', runCalls (Graph.ops Duck.ops) common [copyTo d c] (runOps Duck.ops Duck.new l).2 = (.ok (.network ∅), s') ∧
      runCalls (Graph.ops Duck.ops) common [call "read" [.element c]] s' = (.ok (.network n), s') ∧
      ∀ calls, NeverLets d calls → let s2 := (runCalls (Graph.ops Duck.ops) common calls s').2
        runCalls (Graph.ops Duck.ops) common [call "read" [.element d]] s2 = (.ok (.network n), s2) := by
  have hf := read_form ((read_iff _ _ _ _).mp hr)
  obtain ⟨s', h1, h2⟩ := C59_let_new_duck l d d n rfl hn
  rw [hf] at h2
  obtain ⟨k1, k2⟩ := kept_after_let duck_refines (duck_inv l) h1 h2
  refine ⟨s', ?_, ?_, k2⟩
  · rw [copyTo, let_of_quote _ _ _ _ _ _ _ hr]; exact h1
  · rw [read_iff]
    by_cases e : c.text = d.text
    · rw [entries_same_text _ _ e]
      exact (read_iff _ _ _ _).mp h2
    · exact (k1 c e).trans ((read_iff _ _ _ _).mp hr)

/-! ## Filters on the in-memory store -/

theorem listed_of_read {s : Mem} {c : Element} {n : Network} (h : Graph.memOps.entries s c = .ok n) : Listed Mem.ops s c.text := by
  by_cases hl : Listed Mem.ops s c.text
  · exact hl
  · obtain ⟨⟨m, hm⟩, _⟩ := C36_missing s c (.ext c c) hl
    rw [hm] at h; cases h

theorem filter_of (s : Mem) (c : Element) (p : Pattern) (hp : p.Plain) (n : Network) (hn : Graph.memOps.entries s c = .ok n) :
    ∃ sel : Network, runCalls Graph.memOps common [filterBy c p] s = (.ok (.network sel), s) ∧ ∀ e, e ∈ sel ↔ e ∈ n ∧ p.Matches e := by
  obtain ⟨all, sel, h1, h2, h3⟩ := C21_filter_exact s c p.first p.role p.third (listed_of_read hn) hp.1 hp.2.1 hp.2.2
  rw [hn] at h1; cases h1
  exact ⟨sel, h2, h3⟩

theorem filtered_form {s : Mem} {c : Element} {p : Pattern} {n sel : Network} (hn : Graph.memOps.entries s c = .ok n)
    (h : ∀ e, e ∈ sel ↔ e ∈ n ∧ p.Matches e) : sel.map canon = sel := by
  exact C17_parser_form_unchanged sel fun e he => read_forms (T := Mem.ops) hn e ((h e).mp he).1

/-- **C97.** `filter c ? ? ?` is `read c` for every collection there is. -/
theorem C97_filter_all (s : Mem) (c : Element) (n : Network)
    (hr : runCalls Graph.memOps common [call "read" [.element c]] s = (.ok (.network n), s)) :
    runCalls Graph.memOps common [filterBy c ⟨.of (lit "?"), .of (lit "?"), .of (lit "?")⟩] s = (.ok (.network n), s) := by
  have nv : ¬ IsVar (lit "?") := by rintro ⟨a, b, h⟩; revert h; simp [lit]
  obtain ⟨sel, h1, h2⟩ := filter_of s c ⟨.of (lit "?"), .of (lit "?"), .of (lit "?")⟩ ⟨nv, nv, nv⟩ n ((read_iff _ _ _ _).mp hr)
  have : sel = n := BSet.ext fun e => by rw [h2]; exact ⟨And.left, fun h => ⟨h, .inl rfl, .inl rfl, .inl rfl⟩⟩
  rw [h1, this]

theorem pick_mem (s : Mem) (c d : Element) (p : Pattern) (hp : p.Plain) (n : Network) (hn : Graph.memOps.entries s c = .ok n) :
    ∃ (sel : Network) (s' : Mem), (∀ e, e ∈ sel ↔ e ∈ n ∧ p.Matches e) ∧
      runCalls Graph.memOps common [filterBy c p] s = (.ok (.network sel), s) ∧
      runCalls Graph.memOps common [call "let" [.element d, .network sel]] s = (.ok (.network ∅), s') ∧
      runCalls Graph.memOps common [pickTo d c p] s = (.ok (.network ∅), s') ∧
      runCalls Graph.memOps common [call "read" [.element d]] s' = (.ok (.network sel), s') := by
  obtain ⟨sel, h1, h2⟩ := filter_of s c p hp n hn
  obtain ⟨s', h3, h4⟩ := C17_let_read s d d sel rfl
  rw [filtered_form hn h2] at h4
  exact ⟨sel, s', h2, h1, h3, by rw [pickTo, let_of_quote _ _ _ _ _ _ _ h1]; exact h3, h4⟩

/-- **C97.** `let d (filter c p)` stores exactly the entries of `c` that match, as a snapshot; with `d` being `c` it narrows the
collection in place, since the filter runs before the collection is replaced.  Other collections stay as they are. -/
theorem C97_pick (s : Mem) (c d : Element) (p : Pattern) (hp : p.Plain) (n : Network)
    (hr : runCalls Graph.memOps common [call "read" [.element c]] s = (.ok (.network n), s)) :
    ∃ (sel : Network) (s' : Mem), (∀ e, e ∈ sel ↔ e ∈ n ∧ p.Matches e) ∧
      runCalls Graph.memOps common [pickTo d c p] s = (.ok (.network ∅), s') ∧
      (∀ x : Element, x.text ≠ d.text → Graph.memOps.entries s' x = Graph.memOps.entries s x) ∧
      ∀ calls, NeverLets d calls → let s2 := (runCalls Graph.memOps common calls s').2
        runCalls Graph.memOps common [call "read" [.element d]] s2 = (.ok (.network sel), s2) := by
  obtain ⟨sel, s', h1, _, h3, h4, h5⟩ := pick_mem s c d p hp n ((read_iff _ _ _ _).mp hr)
  obtain ⟨k1, k2⟩ := kept_after_let mem_refines trivial h3 h5
  exact ⟨sel, s', h1, h4, k1, k2⟩

/-- **C97.** Filtering in two steps gives the entries that match both patterns, in whichever order the steps are taken; when the patterns
do not ask for different texts at one position it is one filter with the more particular text at each position, otherwise it is empty. -/
theorem C97_filter_steps (s : Mem) (c d : Element) (p q : Pattern) (hp : p.Plain) (hq : q.Plain) (n : Network)
    (hr : runCalls Graph.memOps common [call "read" [.element c]] s = (.ok (.network n), s)) :
    ∃ sel : Network, (∀ e, e ∈ sel ↔ e ∈ n ∧ p.Matches e ∧ q.Matches e) ∧
      (runCalls Graph.memOps common [pickTo d c p, filterBy d q] s).1 = .ok (.network sel) ∧
      (runCalls Graph.memOps common [pickTo d c q, filterBy d p] s).1 = .ok (.network sel) ∧
      (¬ p.Clash q → runCalls Graph.memOps common [filterBy c (p.both q)] s = (.ok (.network sel), s)) ∧
      (p.Clash q → sel = ∅) := by
  have hn := (read_iff _ _ _ _).mp hr
  have two : ∀ p q : Pattern, p.Plain → q.Plain → ∃ sel : Network, (∀ e, e ∈ sel ↔ e ∈ n ∧ p.Matches e ∧ q.Matches e) ∧
      (runCalls Graph.memOps common [pickTo d c p, filterBy d q] s).1 = .ok (.network sel) := by
    intro p q hp hq
    obtain ⟨sel, s', h1, _, _, h4, h5⟩ := pick_mem s c d p hp n hn
    obtain ⟨sel', g1, g2⟩ := filter_of s' d q hq sel ((read_iff _ _ _ _).mp h5)
    refine ⟨sel', fun e => by rw [g2, h1, and_assoc], ?_⟩
    have := C13_append Graph.memOps common [pickTo d c p] [filterBy d q] s
    rw [h4] at this
    simp only [List.singleton_append, List.cons_ne_self, if_false, g1] at this
    rw [this]
  obtain ⟨sel, h1, h2⟩ := two p q hp hq
  obtain ⟨sel', g1, g2⟩ := two q p hq hp
  have e : sel' = sel := BSet.ext fun e => by rw [g1, h1]; exact ⟨fun ⟨a, b, c⟩ => ⟨a, c, b⟩, fun ⟨a, b, c⟩ => ⟨a, c, b⟩⟩
  subst e
  have one : ∀ (x y : Element) (t : Str), ¬ Clashing x y → (TextMatches (narrower x y).text t ↔ TextMatches x.text t ∧ TextMatches y.text t) := by
    intro x y t hc
    unfold narrower TextMatches
    by_cases hx : x.text = lit "?"
    · rw [if_pos hx]; simp [hx]
    · rw [if_neg hx]
      by_cases hy : y.text = lit "?"
      · simp [hy]
      · have : x.text = y.text := Decidable.byContradiction fun h => hc ⟨hx, hy, h⟩
        rw [this]; simp
  have clash : ∀ (x y : Element) (t : Str), Clashing x y → ¬ (TextMatches x.text t ∧ TextMatches y.text t) := by
    rintro x y t ⟨hx, hy, hxy⟩ ⟨h1 | h1, h2 | h2⟩
    · exact hx h1
    · exact hx h1
    · exact hy h2
    · exact hxy (h1.trans h2.symm)
  refine ⟨sel', h1, h2, g2, ?_, ?_⟩
  · intro hc
    have hc1 : ¬ Clashing p.first q.first := fun h => hc (.inl h)
    have hc2 : ¬ Clashing p.role q.role := fun h => hc (.inr (.inl h))
    have hc3 : ¬ Clashing p.third q.third := fun h => hc (.inr (.inr h))
    have plain : ∀ x y : Element, ¬ IsVar x.text → ¬ IsVar y.text → ¬ IsVar (narrower x y).text := by
      intro x y h h'; unfold narrower; split <;> assumption
    obtain ⟨r, r1, r2⟩ := filter_of s c (p.both q) ⟨plain _ _ hp.1 hq.1, plain _ _ hp.2.1 hq.2.1, plain _ _ hp.2.2 hq.2.2⟩ n hn
    have : r = sel' := BSet.ext fun e => by
      rw [r2, h1]
      unfold Pattern.Matches Pattern.both
      simp only [one _ _ _ hc1, one _ _ _ hc2, one _ _ _ hc3]
      exact ⟨fun ⟨a, ⟨b, b'⟩, ⟨c, c'⟩, d, d'⟩ => ⟨a, ⟨b, c, d⟩, b', c', d'⟩, fun ⟨a, ⟨b, c, d⟩, b', c', d'⟩ => ⟨a, ⟨b, b'⟩, ⟨c, c'⟩, d, d'⟩⟩
    rw [r1, this]
  · intro hc
    apply BSet.ext; intro e
    rw [h1]
    refine ⟨fun ⟨_, hm, hm'⟩ => ?_, fun h => absurd h (by simp)⟩
    exfalso
    rcases hc with hc | hc | hc
    · exact clash _ _ _ hc ⟨hm.1, hm'.1⟩
    · exact clash _ _ _ hc ⟨hm.2.1, hm'.2.1⟩
    · exact clash _ _ _ hc ⟨hm.2.2, hm'.2.2⟩

/-- **C97.** Filtering what a filter gave by the same pattern changes nothing. -/
theorem C97_filter_again (s : Mem) (c d : Element) (p : Pattern) (hp : p.Plain) (n : Network)
    (hr : runCalls Graph.memOps common [call "read" [.element c]] s = (.ok (.network n), s)) :
    (runCalls Graph.memOps common [pickTo d c p, filterBy d p] s).1 = (runCalls Graph.memOps common [filterBy c p] s).1 := by
  obtain ⟨sel, h1, h2, _⟩ := C97_filter_steps s c d p p hp hp n hr
  obtain ⟨sel', g1, g2⟩ := filter_of s c p hp n ((read_iff _ _ _ _).mp hr)
  have : sel' = sel := BSet.ext fun e => by rw [g2, h1, and_self]
  rw [h2, g1, this]

/-! ## The hypotheses can be met -/

/-- Three entries. -/
def snapNet : Network := BSet.ofList [.role (.of (lit "a")) (.of (lit "b")) (.of (lit "r")), .role (.of (lit "a")) (.of (lit "c")) (.of (lit "r")),
  .ext (.of (lit "a")) (.of (lit "b"))]
def snapOps : List Op := [.addCollection (lit "G"), .addTriples (lit "G") (BSet.ofList [⟨lit "a", lit "r", lit "b"⟩,
  ⟨lit "a", lit "r", lit "c"⟩, ⟨lit "a", lit ":", lit "b"⟩])]
/-- It overwrites the source afterwards. -/
def snapLater : List Call := [call "let" [.element (.of (lit "G")), .network ∅]]
theorem snapLater_ok : NeverLets (.of (lit "D")) snapLater := by
  intro c hc name h
  rw [List.mem_singleton.mp hc] at h
  rw [letsIn_let h]; decide

/-- The copy outlives the source. -/
example : let s := (runOps Mem.ops Mem.new snapOps).2
    ∃ s', runCalls Graph.memOps common [copyTo (.of (lit "D")) (.of (lit "G"))] s = (.ok (.network ∅), s') ∧
      let s2 := (runCalls Graph.memOps common snapLater s').2
      runCalls Graph.memOps common [call "read" [.element (.of (lit "G"))]] s2 = (.ok (.network ∅), s2) ∧
      runCalls Graph.memOps common [call "read" [.element (.of (lit "D"))]] s2 = (.ok (.network snapNet), s2) := by
  obtain ⟨s', h1, _, h3⟩ := C97_copy_mem (runOps Mem.ops Mem.new snapOps).2 (.of (lit "G")) (.of (lit "D")) snapNet
    ((read_iff _ _ _ _).mpr (by decide +kernel))
  refine ⟨s', h1, ?_, h3 snapLater snapLater_ok⟩
  obtain ⟨s3, g1, g2⟩ := C17_let_read s' (.of (lit "G")) (.of (lit "G")) ∅ rfl
  have : (runCalls Graph.memOps common snapLater s').2 = s3 := congrArg Prod.snd g1
  show runCalls Graph.memOps common _ (runCalls Graph.memOps common snapLater s').2 = (_, (runCalls Graph.memOps common snapLater s').2)
  rw [this]
  exact g2

/-- The hypotheses of the LMDB and the DuckDB statement are met; on LMDB also by copying onto an existing collection. -/
example := C97_copy_heed snapOps (.of (lit "G")) (.of (lit "D")) snapNet ((read_iff _ _ _ _).mpr (by decide +kernel)) (by decide +kernel)
  (by decide +kernel) ∅ (.inl ⟨by rintro ⟨l, h, h'⟩; cases h; revert h'; decide +kernel, rfl⟩)
example := C97_copy_heed (snapOps ++ [.addCollection (lit "D")]) (.of (lit "G")) (.of (lit "D")) snapNet
  ((read_iff _ _ _ _).mpr (by decide +kernel)) (by decide +kernel) (by decide +kernel) ∅ (.inr ((read_iff _ _ _ _).mpr (by decide +kernel)))
example := C97_copy_duck snapOps (.of (lit "G")) (.of (lit "D")) snapNet ((read_iff _ _ _ _).mpr (by decide +kernel))
  (by rintro ⟨l, h, h'⟩; cases h; revert h'; decide +kernel)

/-- Two patterns that can be joined, and the collection narrowed in place. -/
def patA : Pattern := ⟨.of (lit "a"), .of (lit "r"), .of (lit "?")⟩
def patB : Pattern := ⟨.of (lit "?"), .of (lit "r"), .of (lit "b")⟩
theorem patA_plain : patA.Plain := by
  refine ⟨?_, ?_, ?_⟩ <;> (rintro ⟨c, cs, h⟩; revert h; simp [patA, lit, Element.of])
theorem patB_plain : patB.Plain := by
  refine ⟨?_, ?_, ?_⟩ <;> (rintro ⟨c, cs, h⟩; revert h; simp [patB, lit, Element.of])

example : let s := (runOps Mem.ops Mem.new snapOps).2
    ∃ sel : Network, (runCalls Graph.memOps common [pickTo (.of (lit "G")) (.of (lit "G")) patA, filterBy (.of (lit "G")) patB] s).1 =
        .ok (.network sel) ∧
      runCalls Graph.memOps common [filterBy (.of (lit "G")) ⟨.of (lit "a"), .of (lit "r"), .of (lit "b")⟩] s = (.ok (.network sel), s) ∧
      sel = BSet.ofList [.role (.of (lit "a")) (.of (lit "b")) (.of (lit "r"))] := by
  obtain ⟨sel, _, h2, _, h4, _⟩ := C97_filter_steps (runOps Mem.ops Mem.new snapOps).2 (.of (lit "G")) (.of (lit "G")) patA patB patA_plain patB_plain
    snapNet ((read_iff _ _ _ _).mpr (by decide +kernel))
  have h4' := h4 (by rintro (h | h | h) <;> (revert h; unfold Clashing; decide +kernel))
  refine ⟨sel, h2, h4', ?_⟩
  have : runCalls Graph.memOps common [filterBy (.of (lit "G")) (patA.both patB)] (runOps Mem.ops Mem.new snapOps).2 =
      (.ok (.network (BSet.ofList [.role (.of (lit "a")) (.of (lit "b")) (.of (lit "r"))])), (runOps Mem.ops Mem.new snapOps).2) := by
    rw [filterBy, common_filter]
    decide +kernel
  rw [this] at h4'
  simpa using h4'.symm

example := C97_pick (runOps Mem.ops Mem.new snapOps).2 (.of (lit "G")) (.of (lit "G")) patA patA_plain snapNet
  ((read_iff _ _ _ _).mpr (by decide +kernel))
example := C97_filter_all (runOps Mem.ops Mem.new snapOps).2 (.of (lit "G")) snapNet ((read_iff _ _ _ _).mpr (by decide +kernel))
example := C97_filter_again (runOps Mem.ops Mem.new snapOps).2 (.of (lit "G")) (.of (lit "D")) patA patA_plain snapNet
  ((read_iff _ _ _ _).mpr (by decide +kernel))

end Props
end Verif
