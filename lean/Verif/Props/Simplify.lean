import Verif.Props.Replace
import Verif.Props.Again
import Verif.Props.LocalityMore
import Verif.Props.Monotone
/-!
# C95: calls that can be left out, moved, or computed in advance
-/
namespace Verif
namespace Props
open Spec Eval Steps

/-! ## Leaving a call out -/

/-- C95, any store and command table: a call that, where it stands, succeeds and leaves the store as it is can be left out, unless it is the last. -/
theorem C95_leave_out (L : LigOps σ) (cmds : Commands σ) (pre post : List Call) (c : Call) (s : σ) (hp : post ≠ [])
    (hc : ∀ v s0, runCalls L cmds pre s = (.ok v, s0) → ∃ w, runCalls L cmds [c] s0 = (.ok w, s0)) :
    runCalls L cmds (pre ++ c :: post) s = runCalls L cmds (pre ++ post) s := by
  refine loop_split s fun v s0 h => ?_
  obtain ⟨w, hw⟩ := hc v s0 h
  rw [runCalls_single] at hw
  cases post with
  | nil => exact absurd rfl hp
  | cons d post => rw [runCallsLoop, hw]; rfl

/-- C95, any store: so can, with the standard commands, a call that succeeds where it stands and has no `let`, neither as its name nor in a quote. -/
theorem C95_leave_out_reader (L : LigOps σ) (pre post : List Call) (c : Call) (s : σ) (hp : post ≠ []) (hl : ¬ CallMentions (lit "let") c)
    (hc : ∀ v s0, runCalls L common pre s = (.ok v, s0) → ∃ w, (runCalls L common [c] s0).1 = .ok w) :
    runCalls L common (pre ++ c :: post) s = runCalls L common (pre ++ post) s := by
  refine C95_leave_out L common pre post c s hp fun v s0 h => ?_
  obtain ⟨w, hw⟩ := hc v s0 h
  refine ⟨w, Prod.ext hw (C19_only_let_writes L [c] s0 fun d hd => ?_)⟩
  rw [List.mem_singleton] at hd
  exact hd ▸ hl

/-- C95, any store: `ignore …`, `id v`, `docs` and `union n m` can always be left out, unless they are last. -/
theorem C95_leave_out_plain (L : LigOps σ) (pre post : List Call) (c : Call) (s : σ) (hp : post ≠ [])
    (hc : (∃ args, c = call "ignore" args) ∨ (∃ v, c = call "id" [v]) ∨ c = call "docs" [] ∨ ∃ n m, c = call "union" [.network n, .network m]) :
    runCalls L common (pre ++ c :: post) s = runCalls L common (pre ++ post) s := by
  refine C95_leave_out L common pre post c s hp fun v s0 _ => ?_
  rw [runCalls_single]
  rcases hc with ⟨args, rfl⟩ | ⟨v, rfl⟩ | rfl | ⟨n, m, rfl⟩
  · refine ⟨emptyNet, ?_⟩
    have e : runCall L common (call "ignore" args) s0 = runFun L common (.builtin .ignore) args s0 := rfl
    rw [e, runFun]
  · exact ⟨_, rfl⟩
  · exact ⟨_, rfl⟩
  · exact ⟨_, rfl⟩

/-! ## Moving a call that only reads -/

theorem quiet_same (L : LigOps σ) {R : Str → Prop} {p : Prog} (h : Tame R (fun _ => False) p) (s t : σ)
    (he : ∀ c : Element, R c.text → L.entries s c = L.entries t c) (hf : ∀ c : Element, ∀ pat, R c.text → L.filter s c pat = L.filter t c pat) :
    (p.run L s).1 = (p.run L t).1 := by
  induction h with
  | ret r => rfl
  | entries hR _ _ ih =>
    simp only [Prog.run, perform, he _ hR]
    exact ih _
  | filter hR _ _ ih =>
    simp only [Prog.run, perform, hf _ _ hR]
    exact ih _
  | lets hW => exact hW.elim

theorem lets_mentions {c : Call} {n : Element} (h : CallLets n c) : CallMentions (lit "let") c := by
  rcases h with ⟨h, -⟩ | h
  · exact .inl h
  · exact .inr (mentionsList_of_lets n _ h)

theorem reader_same {T : TripsOps τ} {I : τ → Prop} {b : Bool} {world : τ → World} {P : Op → Prop} (R : Refines T I b world P)
    (hf : ∀ s t c q, T.triples s c = T.triples t c → T.filter s c q = T.filter t c q) {c : Call} (hl : ¬ CallMentions (lit "let") c) (B : List Call)
    (hB : ∀ x ∈ B, ∀ n m : Element, CallReads n c → CallLets m x → n.text ≠ m.text) {s : τ} (hi : I s) :
    (runCalls (Graph.ops T) common [c] (runCalls (Graph.ops T) common B s).2).1 = (runCalls (Graph.ops T) common [c] s).1 := by
  rw [← run_callsP, ← run_callsP (calls := [c])]
  have ht : Tame (fun x => ∃ n : Element, CallReads n c ∧ n.text = x) (fun _ => False) (callsP [c]) := by
    refine tame_runLoopP [c] ?_ ?_ emptyNet
    · intro d hd n hn
      rw [List.mem_singleton] at hd
      exact ⟨n, hd ▸ hn, rfl⟩
    · intro d hd n hn
      rw [List.mem_singleton] at hd
      exact hl (lets_mentions (hd ▸ hn))
  have hfr : ∀ e : Element, (∃ n : Element, CallReads n c ∧ n.text = e.text) →
      (Graph.ops T).entries (runCalls (Graph.ops T) common B s).2 e = (Graph.ops T).entries s e := by
    rintro e ⟨n, hn, he⟩
    exact (frame_of R hi B e fun x hx m hm h => hB x hx n m hn hm (he.trans h.symm)).1
  refine quiet_same _ ht _ _ hfr fun e pat he => ?_
  have := trips_of_entries (hfr e he)
  show Res.errTodo (Res.map _ (T.filter _ _ _)) = Res.errTodo (Res.map _ (T.filter _ _ _))
  rw [hf _ _ _ _ this]

theorem move_of {T : TripsOps τ} {I : τ → Prop} {b : Bool} {world : τ → World} {P : Op → Prop} (R : Refines T I b world P)
    (hf : ∀ s t c q, T.triples s c = T.triples t c → T.filter s c q = T.filter t c q) (pre B post : List Call) {c : Call}
    (hl : ¬ CallMentions (lit "let") c) (hB : ∀ x ∈ B, ∀ n m : Element, CallReads n c → CallLets m x → n.text ≠ m.text) {s : τ} (hi : I s)
    (hp : post ≠ [])
    (hc : ∀ v s0, runCalls (Graph.ops T) common pre s = (.ok v, s0) → ∃ w, (runCalls (Graph.ops T) common [c] s0).1 = .ok w) :
    runCalls (Graph.ops T) common (pre ++ c :: (B ++ post)) s = runCalls (Graph.ops T) common (pre ++ (B ++ c :: post)) s := by
  have quiet : ∀ s0, (runCalls (Graph.ops T) common [c] s0).2 = s0 := fun s0 => C19_only_let_writes _ [c] s0 fun d hd => by
    rw [List.mem_singleton] at hd
    exact hd ▸ hl
  refine loop_split s fun v s0 h => ?_
  have hi0 : I s0 := by
    have := (calls_keep R.inv (fun _ => True) pre (fun _ _ _ _ _ => trivial) (fun _ _ _ _ _ _ => trivial) s hi trivial).1
    rwa [h] at this
  obtain ⟨w, hw⟩ := hc v s0 h
  have hB' := reader_same R hf hl B hB hi0
  have h1 : runCall (Graph.ops T) common c s0 = (.ok w, s0) := by rw [← runCalls_single]; exact Prod.ext hw (quiet s0)
  rw [runCallsLoop, h1]
  show runCallsLoop (Graph.ops T) common (B ++ post) w s0 = _
  rw [runCallsLoop_append, runCallsLoop_append]
  cases B with
  | nil =>
    cases post with
    | nil => exact absurd rfl hp
    | cons d post => simp only [runCallsLoop, h1]
  | cons d B =>
    have e : ∀ x y : Value, runCallsLoop (Graph.ops T) common (d :: B) x s0 = runCallsLoop (Graph.ops T) common (d :: B) y s0 := fun _ _ => rfl
    rw [e v emptyNet, e w emptyNet]
    show (match runCallsLoop (Graph.ops T) common (d :: B) emptyNet s0 with
      | (.ok w, s1) => runCallsLoop (Graph.ops T) common post w s1
      | (.err m, s1) => (.err m, s1)
      | (.panic, s1) => (.panic, s1)) = _
    rw [hw] at hB'
    simp only [runCalls] at hB'
    generalize runCallsLoop (Graph.ops T) common (d :: B) emptyNet s0 = r at *
    obtain ⟨r, s1⟩ := r
    cases r with
    | err m => rfl
    | panic => rfl
    | ok u =>
      have h2 : runCall (Graph.ops T) common c s1 = (.ok w, s1) := by rw [← runCalls_single]; exact Prod.ext hB' (quiet s1)
      simp only [runCallsLoop, h2]
      cases post with
      | nil => exact absurd rfl hp
      | cons d post => rfl

/-- C95: a call without `let` that succeeds where it stands can be moved down over any calls that `let` nothing it reads, whether or not these succeed, unless it
becomes the last.  In the in-memory store, from any state; -/
theorem C95_move_mem (pre B post : List Call) (c : Call) (s : Mem) (hp : post ≠ []) (hl : ¬ CallMentions (lit "let") c)
    (hB : ∀ x ∈ B, ∀ n m : Element, CallReads n c → CallLets m x → n.text ≠ m.text)
    (hc : ∀ v s0, runCalls (Graph.ops Mem.ops) common pre s = (.ok v, s0) → ∃ w, (runCalls (Graph.ops Mem.ops) common [c] s0).1 = .ok w) :
    runCalls (Graph.ops Mem.ops) common (pre ++ c :: (B ++ post)) s = runCalls (Graph.ops Mem.ops) common (pre ++ (B ++ c :: post)) s := by
  refine move_of mem_refines (fun s t c q h => ?_) pre B post hl hB trivial hp hc
  simp only [Mem.ops, Mem.triples, Mem.filter] at h ⊢
  cases h1 : s.colls.get? c <;> cases h2 : t.colls.get? c <;> rw [h1, h2] at h <;> simp_all

/-- C95: in the LMDB-backed store, from every reachable state; -/
theorem C95_move_heed (l : List Op) (pre B post : List Call) (c : Call) (hp : post ≠ []) (hl : ¬ CallMentions (lit "let") c)
    (hB : ∀ x ∈ B, ∀ n m : Element, CallReads n c → CallLets m x → n.text ≠ m.text) :
    let s := (runOps Heed.ops Heed.new l).2
    (∀ v s0, runCalls (Graph.ops Heed.ops) common pre s = (.ok v, s0) → ∃ w, (runCalls (Graph.ops Heed.ops) common [c] s0).1 = .ok w) →
    runCalls (Graph.ops Heed.ops) common (pre ++ c :: (B ++ post)) s = runCalls (Graph.ops Heed.ops) common (pre ++ (B ++ c :: post)) s :=
  fun hc => move_of heed_refines (fun _ _ _ _ _ => rfl) pre B post hl hB (heed_good l) hp hc

/-- C95: and likewise in the DuckDB-backed store. -/
theorem C95_move_duck (l : List Op) (pre B post : List Call) (c : Call) (hp : post ≠ []) (hl : ¬ CallMentions (lit "let") c)
    (hB : ∀ x ∈ B, ∀ n m : Element, CallReads n c → CallLets m x → n.text ≠ m.text) :
    let s := (runOps Duck.ops Duck.new l).2
    (∀ v s0, runCalls (Graph.ops Duck.ops) common pre s = (.ok v, s0) → ∃ w, (runCalls (Graph.ops Duck.ops) common [c] s0).1 = .ok w) →
    runCalls (Graph.ops Duck.ops) common (pre ++ c :: (B ++ post)) s = runCalls (Graph.ops Duck.ops) common (pre ++ (B ++ c :: post)) s :=
  fun hc => move_of duck_refines (fun _ _ _ _ _ => rfl) pre B post hl hB (duck_inv l) hp hc

/-! ## Writes that are overwritten -/

/-- C95, in-memory store: a `let` of a network can be left out if what follows writes the collection before it reads it (and at all). -/
theorem C95_dead_let (pre rest : List Call) (c : Element) (n : Network) (s : Mem)
    (h : ∀ v s0, runCalls Graph.memOps common pre s = (.ok v, s0) → FirstWritten c.text (asksOf Graph.memOps (callsP rest) s0)) :
    runCalls Graph.memOps common (pre ++ call "let" [.element c, .network n] :: rest) s = runCalls Graph.memOps common (pre ++ rest) s := by
  refine loop_split s fun v s0 hv => ?_
  have h := h v s0 hv
  have h1 := common_let Graph.memOps c n s0
  rw [runCalls_single, memLet] at h1
  rw [runCallsLoop, h1]
  have h2 := C87_mem_blind s0 ⟨s0.colls.insert c.text (BSet.union ∅ (n.map Graph.entryToTrip))⟩ rest fun d hd => ?_
  · cases rest with
    | nil => obtain ⟨a, q, b, e, -⟩ := h; simp [callsP, runLoopP, asksOf] at e
    | cons d rest => exact h2
  · by_cases e : d = c.text
    · exact e ▸ h
    · exfalso
      apply hd
      simp only [Mem.ops, Mem.triples, BMap.get?_insert_ne _ _ e]

theorem first_or_none (c : Str) : ∀ tr : List Ask, (∀ q ∈ tr, Reading q → askName q ≠ c) → FirstWritten c tr ∨ ∀ q ∈ tr, askName q ≠ c
  | [], _ => .inr fun q hq => absurd hq (by simp)
  | q :: tr, h => by
    by_cases hq : askName q = c
    · refine .inl ⟨[], q, tr, rfl, ?_, hq, fun x hx => absurd hx (by simp)⟩
      have := fun hr => h q (by simp) hr hq
      cases q <;> simp_all [Reading, Writing]
    · rcases first_or_none c tr fun q' h' => h q' (List.mem_cons_of_mem _ h') with ⟨a, q', b, rfl, h2, h3, h4⟩ | h'
      · refine .inl ⟨q :: a, q', b, rfl, h2, h3, fun x hx => ?_⟩
        rcases List.mem_cons.mp hx with rfl | hx
        · exact hq
        · exact h4 x hx
      · refine .inr fun x hx => ?_
        rcases List.mem_cons.mp hx with rfl | hx
        · exact hq
        · exact h' x hx

theorem firstWritten_append (c : Str) (tr u : List Ask) (h : ∀ q ∈ tr, Reading q → askName q ≠ c) (hu : FirstWritten c u) : FirstWritten c (tr ++ u) := by
  rcases first_or_none c tr h with ⟨a, q, b, rfl, h2, h3, h4⟩ | h'
  · exact ⟨a, q, b ++ u, by simp, h2, h3, h4⟩
  · obtain ⟨a, q, b, rfl, h2, h3, h4⟩ := hu
    refine ⟨tr ++ a, q, b, by simp, h2, h3, fun x hx => ?_⟩
    rcases List.mem_append.mp hx with hx | hx
    · exact h' x hx
    · exact h4 x hx

theorem run_callP (L : LigOps σ) (c : Call) (s : σ) : (callP c).run L s = runCall L common c s := by
  have := run_runQuoteP L (.element c.name :: c.args) s
  rw [runQuote_call] at this
  simpa only [runQuoteP, callP] using this

theorem firstWritten_loop (L : LigOps σ) (c c' : Element) (hn : c'.text = c.text) (n' : Network) (post mid : List Call) :
    (∀ x ∈ mid, ∀ m : Element, CallReads m x → m.text ≠ c.text) → ∀ (v w : Value) (s : σ), (runCallsLoop L common mid v s).1 = .ok w →
    FirstWritten c.text (asksOf L (runLoopP (mid ++ call "let" [.element c', .network n'] :: post) v) s) := by
  induction mid with
  | nil =>
    intro _ v w s _
    exact ⟨[], .addCollection c', _, rfl, trivial, hn, fun x hx => absurd hx (by simp)⟩
  | cons x mid ih =>
    intro hm v w s h
    simp only [List.cons_append, runLoopP]
    rw [asksOf_andThen]
    refine firstWritten_append _ _ _ (fun q hq hr => ?_) ?_
    · have ht := tame_callP (R := fun y => y ≠ c.text) (W := fun _ => True) x (hm x (by simp)) (fun _ _ => trivial)
      exact (tame_asks L ht s q hq).1 hr
    · rw [run_callP]
      simp only [runCallsLoop] at h
      generalize runCall L common x s = r at *
      obtain ⟨r, s1⟩ := r
      cases r with
      | ok u => exact ih (fun y hy => hm y (List.mem_cons_of_mem _ hy)) u w s1 h
      | err m => simp at h
      | panic => simp at h

/-- C95, in-memory store: in particular if calls that succeed and do not read the collection come between it and the next `let` of it. -/
theorem C95_overwritten (pre mid post : List Call) (c c' : Element) (n n' : Network) (s : Mem) (hn : c'.text = c.text)
    (hm : ∀ x ∈ mid, ∀ m : Element, CallReads m x → m.text ≠ c.text)
    (hok : ∀ v s0, runCalls Graph.memOps common pre s = (.ok v, s0) → ∃ w, (runCalls Graph.memOps common mid s0).1 = .ok w) :
    runCalls Graph.memOps common (pre ++ call "let" [.element c, .network n] :: (mid ++ call "let" [.element c', .network n'] :: post)) s =
      runCalls Graph.memOps common (pre ++ (mid ++ call "let" [.element c', .network n'] :: post)) s := by
  refine C95_dead_let pre _ c n s fun v s0 h => ?_
  obtain ⟨w, hw⟩ := hok v s0 h
  exact firstWritten_loop Graph.memOps c c' hn n' post mid hm emptyNet w s0 hw

/-! ## Reading what is known -/

theorem letsIn_arg (m : Element) {v : List Value} (h : LetsIn m (.quote v)) : ∀ vs : List Value, .quote v ∈ vs → LetsInList m vs
  | [], hv => absurd hv (by simp)
  | x :: vs, hv => by
    rw [LetsInList]
    rcases List.mem_cons.mp hv with rfl | hv
    · exact .inl h
    · exact .inr (letsIn_arg m h vs hv)

theorem callLets_iff (m f : Element) (args : List Value) : LetsIn m (.quote (.element f :: args)) ↔ CallLets m ⟨f, args⟩ := by
  simp only [LetsIn, LetsInList, CallLets, List.cons.injEq, Value.element.injEq, false_or]
  constructor
  · rintro (⟨e, rest, ⟨rfl, h⟩, h'⟩ | h)
    · exact .inl ⟨h', rest, h⟩
    · exact .inr h
  · rintro (⟨h', rest, h⟩ | h)
    · exact .inl ⟨f, rest, ⟨rfl, h⟩, h'⟩
    · exact .inr h

theorem known_of {T : TripsOps τ} {I : τ → Prop} {b : Bool} {world : τ → World} {P : Op → Prop} (R : Refines T I b world P) (c : Element) (n : Network)
    (rest rest' : List Call) (hl : ∀ x ∈ rest, ∀ m : Element, CallLets m x → m.text ≠ c.text)
    (h : SwappedCalls (common (σ := τ)) [.element (el "read"), .element c] [.element (el "id"), .network n] rest rest')
    {s : τ} (hi : I s) (hs : (runCalls (Graph.ops T) common [call "read" [.element c]] s).1 = .ok (.network n)) :
    runCalls (Graph.ops T) common rest s = runCalls (Graph.ops T) common rest' s := by
  have hs : (Graph.ops T).entries s c = .ok n := by
    rw [common_read, Eval.read] at hs
    revert hs
    cases (Graph.ops T).entries s c <;> simp
  refine swapped_loop_in (I := fun t => I t ∧ (Graph.ops T).entries t c = .ok n) (K := fun v => ∀ m : Element, LetsIn m (.quote v) → m.text ≠ c.text)
    ?_ common_wf ?_ ?_ h ?_ _ s ⟨hi, hs⟩
  · intro name args v hk hv m hm
    refine hk m ?_
    rw [LetsIn, LetsInList]
    exact .inr (.inr (letsIn_arg m hm args hv))
  · intro v t hk ⟨h1, h2⟩
    match v, hk with
    | [], _ => rw [runQuote]; exact ⟨h1, h2⟩
    | .quote _ :: _, _ => rw [runQuote]; exact ⟨h1, h2⟩
    | .network _ :: _, _ => rw [runQuote]; exact ⟨h1, h2⟩
    | .element f :: args, hk =>
      rw [runQuote_call, ← runCalls_single]
      have hc : ∀ x ∈ [(⟨f, args⟩ : Call)], ∀ m : Element, CallLets m x → m.text ≠ c.text := by
        intro x hx m hm
        rw [List.mem_singleton] at hx
        exact hk m ((callLets_iff m f args).mpr (hx ▸ hm))
      exact ⟨(calls_keep R.inv (fun _ => True) [⟨f, args⟩] (fun _ _ _ _ _ => trivial) (fun _ _ _ _ _ _ => trivial) t h1 trivial).1,
        (frame_of R h1 _ c hc).1.trans h2⟩
  · intro t ⟨_, h2⟩
    have e1 : runQuote (Graph.ops T) common [.element (el "read"), .element c] t = (read (Graph.ops T) [.element c] t, t) := rfl
    have e2 : runQuote (Graph.ops T) common [.element (el "id"), .network n] t = (.ok (.network n), t) := rfl
    rw [e1, e2]
    simp only [Eval.read, h2]
  · intro x hx m hm
    exact hl x hx m ((callLets_iff m x.name x.args).mp hm)

/-- C95: while nothing `let`s a collection, every `read` of it, as a call or in a quote that is run, at any depth, can be replaced by the network that `read`
gives at the beginning (`id n`): in-memory store, any state; -/
theorem C95_known_mem (c : Element) (n : Network) (rest rest' : List Call) (hl : ∀ x ∈ rest, ∀ m : Element, CallLets m x → m.text ≠ c.text)
    (h : SwappedCalls (common (σ := Mem)) [.element (el "read"), .element c] [.element (el "id"), .network n] rest rest') (s : Mem)
    (hs : (runCalls (Graph.ops Mem.ops) common [call "read" [.element c]] s).1 = .ok (.network n)) :
    runCalls (Graph.ops Mem.ops) common rest s = runCalls (Graph.ops Mem.ops) common rest' s := known_of mem_refines c n rest rest' hl h trivial hs

/-- C95: LMDB-backed store, every reachable state; -/
theorem C95_known_heed (l : List Op) (c : Element) (n : Network) (rest rest' : List Call) (hl : ∀ x ∈ rest, ∀ m : Element, CallLets m x → m.text ≠ c.text)
    (h : SwappedCalls (common (σ := Heed)) [.element (el "read"), .element c] [.element (el "id"), .network n] rest rest') :
    let s := (runOps Heed.ops Heed.new l).2
    (runCalls (Graph.ops Heed.ops) common [call "read" [.element c]] s).1 = .ok (.network n) →
    runCalls (Graph.ops Heed.ops) common rest s = runCalls (Graph.ops Heed.ops) common rest' s :=
  fun hs => known_of heed_refines c n rest rest' hl h (heed_good l) hs

/-- C95: DuckDB-backed store, every reachable state. -/
theorem C95_known_duck (l : List Op) (c : Element) (n : Network) (rest rest' : List Call) (hl : ∀ x ∈ rest, ∀ m : Element, CallLets m x → m.text ≠ c.text)
    (h : SwappedCalls (common (σ := Duck)) [.element (el "read"), .element c] [.element (el "id"), .network n] rest rest') :
    let s := (runOps Duck.ops Duck.new l).2
    (runCalls (Graph.ops Duck.ops) common [call "read" [.element c]] s).1 = .ok (.network n) →
    runCalls (Graph.ops Duck.ops) common rest s = runCalls (Graph.ops Duck.ops) common rest' s :=
  fun hs => known_of duck_refines c n rest rest' hl h (duck_inv l) hs

/-- C95, in-memory store: in particular after a `let` of a network, in the form in which the parser gives it. -/
theorem C95_known_after_let (pre rest rest' : List Call) (c : Element) (n : Network) (s : Mem) (hn : ∀ e ∈ n, ParserForm e)
    (hl : ∀ x ∈ rest, ∀ m : Element, CallLets m x → m.text ≠ c.text)
    (h : SwappedCalls (common (σ := Mem)) [.element (el "read"), .element c] [.element (el "id"), .network n] rest rest') :
    runCalls Graph.memOps common (pre ++ call "let" [.element c, .network n] :: rest) s =
      runCalls Graph.memOps common (pre ++ call "let" [.element c, .network n] :: rest') s := by
  refine loop_split s fun v s0 _ => ?_
  obtain ⟨s1, h1, h2⟩ := C17_let_read s0 c c n rfl
  rw [C17_parser_form_unchanged n hn] at h2
  rw [runCalls_single] at h1
  rw [runCallsLoop, runCallsLoop, h1]
  exact C95_known_mem c n rest rest' hl h s1 (congrArg Prod.fst h2)

/-! ## What a second `let` does -/

/-- C95, LMDB-backed store: if they succeed, two `let`s of the same collection, one after the other, leave what one `let` of the union of the networks leaves. -/
theorem C95_merge_lmdb (l : List Op) (c c' c'' : Element) (n m : Network) (hc : c'.text = c.text) (hc' : c''.text = c.text) (v v' : Value) (s1 s2 : Heed) :
    let s := (runOps Heed.ops Heed.new l).2
    runCalls (Graph.ops Heed.ops) common [call "let" [.element c, .network n], call "let" [.element c', .network m]] s = (.ok v, s1) →
    runCalls (Graph.ops Heed.ops) common [call "let" [.element c'', .network (n.union m)]] s = (.ok v', s2) →
    SameView Heed.ops s1 Heed.ops s2 := by
  intro s h1 h2
  have hg := heed_good l
  rw [common_let] at h2
  obtain ⟨-, g2, w2⟩ := heed_let_world hg h2
  rw [show [call "let" [.element c, .network n], call "let" [.element c', .network m]] =
    [call "let" [.element c, .network n]] ++ [call "let" [.element c', .network m]] from rfl, runCalls_append, common_let] at h1
  rcases e : letStore (Graph.ops Heed.ops) c n (runOps Heed.ops Heed.new l).2 with ⟨r, t⟩
  rw [e] at h1
  cases r with
  | err _ => simp at h1
  | panic => simp at h1
  | ok u =>
    simp only [List.cons_ne_nil, if_false, common_let] at h1
    obtain ⟨-, g, w⟩ := heed_let_world hg e
    obtain ⟨-, g1, w1⟩ := heed_let_world g h1
    have : Heed.worldOf s1 = Heed.worldOf s2 := by
      rw [w1, w, w2, hc, hc']
      funext d
      by_cases e : d = c.text
      · subst e
        simp only [growLetWorld, World.set_same, true_and, Option.some.injEq]
        funext x
        apply propext
        simp only [exists_eq_left', BSet.mem_map, BSet.mem_union]
        grind
      · simp only [growLetWorld, World.set_other _ _ e]
    exact Agrees.sameView (heed_refines.agrees _ g1) (this ▸ heed_refines.agrees _ g2)

/-! ## Cases -/

/-- Some calls: `let c n`, and `assert-equal (read T) (read T)`. -/
def simpleLet (c : String) (n : Network) : Call := call "let" [.element (el c), .network n]
def oneNet : Network := BSet.ofList [.ext (el "a") (el "C")]
def otherNet : Network := BSet.ofList [.role (el "b") (el "c") (el "r")]
def readsTwice : Call := call "assert-equal" [.quote [.element (el "read"), .element (el "T")], .quote [.element (el "read"), .element (el "T")]]

theorem readsTwice_quiet : ¬ CallMentions (lit "let") readsTwice := by
  simp [CallMentions, readsTwice, call, MentionsList, Mentions, Element.of]
  decide

theorem readsTwice_reads : ∀ n : Element, CallReads n readsTwice → n.text = lit "T" := by
  rintro n (⟨h, -⟩ | h)
  · exact absurd h (by decide)
  · simp only [readsTwice, call, ReadsInList, ReadsIn, List.cons.injEq, Value.element.injEq, or_false] at h
    rcases h with ⟨e, rest, ⟨-, rfl, -⟩, -⟩ | ⟨e, rest, ⟨-, rfl, -⟩, -⟩ <;> rfl

/-- The hypotheses of `C95_leave_out_reader` (and `C95_leave_out`) are met. -/
example : (runCalls Graph.memOps common [readsTwice] (runOps Mem.ops Mem.new fewOps).2).1 = .ok (.network ∅) ∧
    runCalls Graph.memOps common ([] ++ readsTwice :: [call "read" [.element (el "T")]]) (runOps Mem.ops Mem.new fewOps).2 =
      runCalls Graph.memOps common ([] ++ [call "read" [.element (el "T")]]) (runOps Mem.ops Mem.new fewOps).2 := by
  refine ⟨by decide +kernel, C95_leave_out_reader _ _ _ _ _ (by simp) readsTwice_quiet fun v s0 h => ?_⟩
  cases h
  exact ⟨.network ∅, by decide +kernel⟩

/-- Those of `C95_move_mem`, with a call that fails in between. -/
example : runCalls (Graph.ops Mem.ops) common ([] ++ readsTwice :: ([simpleLet "U" oneNet, call "no-such" []] ++ [call "docs" []])) (runOps Mem.ops Mem.new fewOps).2 =
    runCalls (Graph.ops Mem.ops) common ([] ++ ([simpleLet "U" oneNet, call "no-such" []] ++ readsTwice :: [call "docs" []])) (runOps Mem.ops Mem.new fewOps).2 := by
  refine C95_move_mem _ _ _ _ _ (by simp) readsTwice_quiet (fun x hx n m hn hm => ?_) fun v s0 h => ?_
  · rw [readsTwice_reads n hn]
    simp only [List.mem_cons, List.not_mem_nil, or_false] at hx
    rcases hx with rfl | rfl
    · rcases hm with ⟨-, rest, h⟩ | h
      · simp only [simpleLet, call, List.cons.injEq, Value.element.injEq] at h
        obtain ⟨rfl, -⟩ := h
        decide
      · simp only [simpleLet, call, LetsInList, LetsIn, or_false] at h
    · rcases hm with ⟨h, -⟩ | h
      · exact absurd h (by decide)
      · simp only [call, LetsInList] at h
  · cases h
    exact ⟨.network ∅, by decide +kernel⟩

/-- Those of `C95_move_heed` and `C95_move_duck`: the call succeeds there. -/
example : (runCalls (Graph.ops Heed.ops) common [readsTwice] (runOps Heed.ops Heed.new fewOps).2).1 = .ok (.network ∅) ∧
    (runCalls (Graph.ops Duck.ops) common [readsTwice] (runOps Duck.ops Duck.new fewOps).2).1 = .ok (.network ∅) :=
  ⟨by decide +kernel, by decide +kernel⟩

/-- Those of `C95_overwritten`: `let U {a : C}` goes. -/
example : runCalls Graph.memOps common ([] ++ simpleLet "U" oneNet :: ([readsTwice] ++ simpleLet "U" otherNet :: [call "read" [.element (el "U")]]))
      (runOps Mem.ops Mem.new fewOps).2 =
    runCalls Graph.memOps common ([] ++ ([readsTwice] ++ simpleLet "U" otherNet :: [call "read" [.element (el "U")]])) (runOps Mem.ops Mem.new fewOps).2 ∧
    (runCalls Graph.memOps common ([] ++ simpleLet "U" oneNet :: ([readsTwice] ++ simpleLet "U" otherNet :: [call "read" [.element (el "U")]]))
      (runOps Mem.ops Mem.new fewOps).2).1 = .ok (.network otherNet) := by
  refine ⟨C95_overwritten _ _ _ _ _ _ _ _ rfl (fun x hx m hm => ?_) fun v s0 h => ?_, by decide +kernel⟩
  · rw [List.mem_singleton] at hx
    rw [readsTwice_reads m (hx ▸ hm)]
    decide
  · cases h
    exact ⟨.network ∅, by decide +kernel⟩

/-- Those of `C95_known_mem`, `C95_known_heed` and `C95_known_duck`: what is read of `T` can be put in its place in a quote of `let`. -/
def copyKnown : List Call := [call "let" [.element (el "U"), .quote [.element (el "id"), .network oneNet]], call "read" [.element (el "U")]]

theorem copy_known (σ : Type) : SwappedCalls (common (σ := σ)) [.element (el "read"), .element (el "T")] [.element (el "id"), .network oneNet] copyCalls copyKnown :=
  .cons (.inside (.letQuote ⟨_, by simp [common, Element.of, call]; rfl⟩ .here)) (.cons (.same _) .nil)

theorem copyCalls_lets : ∀ x ∈ copyCalls, ∀ m : Element, CallLets m x → m.text ≠ (el "T").text := by
  intro c hc n hn
  simp only [copyCalls, List.mem_cons, List.not_mem_nil, or_false] at hc
  rcases hc with rfl | rfl
  · rcases hn with ⟨-, rest, h⟩ | h
    · simp only [call, List.cons.injEq, Value.element.injEq] at h
      obtain ⟨rfl, -⟩ := h
      decide
    · simp only [call, LetsInList, LetsIn, or_false, false_or] at h
      obtain ⟨e, rest, h, h'⟩ := h
      simp only [List.cons.injEq, Value.element.injEq] at h
      obtain ⟨rfl, -⟩ := h
      exact absurd h' (by decide)
  · rcases hn with ⟨h, -⟩ | h
    · exact absurd h (by decide)
    · simp only [call, LetsInList, LetsIn, or_false] at h

example : runCalls (Graph.ops Mem.ops) common copyCalls (runOps Mem.ops Mem.new fewOps).2 =
      runCalls (Graph.ops Mem.ops) common copyKnown (runOps Mem.ops Mem.new fewOps).2 ∧
    runCalls (Graph.ops Heed.ops) common copyCalls (runOps Heed.ops Heed.new fewOps).2 =
      runCalls (Graph.ops Heed.ops) common copyKnown (runOps Heed.ops Heed.new fewOps).2 ∧
    runCalls (Graph.ops Duck.ops) common copyCalls (runOps Duck.ops Duck.new fewOps).2 =
      runCalls (Graph.ops Duck.ops) common copyKnown (runOps Duck.ops Duck.new fewOps).2 :=
  ⟨C95_known_mem (el "T") oneNet _ _ copyCalls_lets (copy_known _) _ (by decide +kernel),
    C95_known_heed fewOps (el "T") oneNet _ _ copyCalls_lets (copy_known _) (by decide +kernel),
    C95_known_duck fewOps (el "T") oneNet _ _ copyCalls_lets (copy_known _) (by decide +kernel)⟩

/-- Those of `C95_known_after_let`. -/
example : runCalls Graph.memOps common ([] ++ call "let" [.element (el "T"), .network oneNet] :: copyCalls) Mem.new =
    runCalls Graph.memOps common ([] ++ call "let" [.element (el "T"), .network oneNet] :: copyKnown) Mem.new :=
  C95_known_after_let [] _ _ (el "T") oneNet Mem.new (fun e he => by rw [oneNet, BSet.mem_ofList, List.mem_singleton] at he; subst he; show canon _ = _; decide +kernel) copyCalls_lets (copy_known _)

/-- Those of `C95_merge_lmdb`. -/
example : (runCalls (Graph.ops Heed.ops) common [simpleLet "T" oneNet, simpleLet "T" otherNet] (runOps Heed.ops Heed.new fewOps).2).1 = .ok (.network ∅) ∧
    (runCalls (Graph.ops Heed.ops) common [simpleLet "T" (oneNet.union otherNet)] (runOps Heed.ops Heed.new fewOps).2).1 = .ok (.network ∅) :=
  ⟨by decide +kernel, by decide +kernel⟩

/-- C95: the conditions are needed.  A call that fails cannot be left out or moved (the store it leaves shows it); a `let` that is overwritten can be left out
neither if it is read in between, nor on the LMDB-backed store; a last call cannot be left out; after another `let`, what was read is not known any more. -/
theorem C95_needed :
    (∃ (s : Mem) (c : Call), ¬ CallMentions (lit "let") c ∧
      runCalls Graph.memOps common ([c] ++ [simpleLet "U" oneNet]) s ≠ runCalls Graph.memOps common [simpleLet "U" oneNet] s ∧
      (runCalls Graph.memOps common ([c] ++ [simpleLet "U" oneNet]) s).2 ≠ (runCalls Graph.memOps common ([simpleLet "U" oneNet] ++ [c]) s).2) ∧
    (∃ (s : Mem) (c : Call), runCalls Graph.memOps common [simpleLet "U" oneNet, c, simpleLet "U" otherNet] s ≠
      runCalls Graph.memOps common [c, simpleLet "U" otherNet] s) ∧
    (∃ s : Heed, (runCalls (Graph.ops Heed.ops) common [simpleLet "U" oneNet, simpleLet "U" otherNet, call "read" [.element (el "U")]] s).1 ≠
      (runCalls (Graph.ops Heed.ops) common [simpleLet "U" otherNet, call "read" [.element (el "U")]] s).1) ∧
    (∃ (s : Mem) (v : Value), runCalls Graph.memOps common [call "docs" [], call "id" [v]] s ≠ runCalls Graph.memOps common [call "docs" []] s) ∧
    (∃ s : Mem, (runCalls Graph.memOps common [call "read" [.element (el "U")]] s).1 = .ok (.network oneNet) ∧
      runCalls Graph.memOps common [simpleLet "U" otherNet, call "read" [.element (el "U")]] s ≠
        runCalls Graph.memOps common [simpleLet "U" otherNet, call "id" [.network oneNet]] s) := by
  refine ⟨⟨Mem.new, call "no-such" [], ?_, ?_, ?_⟩, ⟨Mem.new, call "let" [.element (el "V"), .quote [.element (el "read"), .element (el "U")]], ?_⟩,
    ⟨Heed.new, ?_⟩, ⟨Mem.new, .network oneNet, ?_⟩,
    ⟨(runCalls Graph.memOps common [simpleLet "U" oneNet] Mem.new).2, ?_, ?_⟩⟩
  · simp [CallMentions, call, MentionsList, Element.of]; decide
  · exact fun h => absurd (congrArg (fun r => r.2.colls.get? (lit "U")) h) (by decide +kernel)
  · exact fun h => absurd (congrArg (fun r => r.colls.get? (lit "U")) h) (by decide +kernel)
  · exact fun h => absurd (congrArg (fun r => r.2.colls.get? (lit "V")) h) (by decide +kernel)
  · decide +kernel
  · exact fun h => absurd (congrArg (fun r => r.1) h) (by decide +kernel)
  · decide +kernel
  · exact fun h => absurd (congrArg (fun r => r.1) h) (by decide +kernel)

end Props
end Verif
