import Verif.Proofs.Effects
import Verif.Props.ScriptsCross
/-!
# C60–C62: what scripts can do to the store
-/
namespace Verif
namespace Props
open Spec Eval

theorem common_let_name (n : Str) (c : Command σ) (h : (common : Commands σ).get? n = some c) (hf : c.fn = .builtin .let_) :
    n = lit "let" := by
  have hm : (n, c) ∈ (common : Commands σ) := mem_of_lookup h
  simp only [common, List.mem_cons, Prod.mk.injEq, List.not_mem_nil, or_false] at hm
  rcases hm with ⟨_, rfl⟩ | ⟨_, rfl⟩ | ⟨_, rfl⟩ | ⟨hn, rfl⟩ | ⟨_, rfl⟩ | ⟨_, rfl⟩ | ⟨_, rfl⟩ | ⟨_, rfl⟩ | ⟨_, rfl⟩ <;>
    first | exact hn | (simp at hf)

/-! ## C60 -/

/-- C60: whatever a list of calls does, and however it ends (a value, an error or a panic), over any store, it leaves the store as some
sequence of `let name network` calls would whose names all occur as the target of a `let` in the calls or their quotes. -/
theorem C60_effect_is_lets (L : LigOps σ) (calls : List Call) (s : σ) :
    ∃ ws : List (Element × Network), (∀ w ∈ ws, ∃ c ∈ calls, CallLets w.1 c) ∧
      (runCalls L common calls s).2 = afterLets L s ws :=
  runCallsLoop_effect (L := L) common_let_name calls emptyNet s

/-- C60: so anything that every such `let` preserves is preserved. -/
theorem C60_invariants (L : LigOps σ) (P : σ → Prop) (calls : List Call)
    (hP : ∀ s name n, (∃ c ∈ calls, CallLets name c) → P s →
      P (runCalls L common [call "let" [.element name, .network n]] s).2)
    (s : σ) (hs : P s) : P (runCalls L common calls s).2 := by
  obtain ⟨ws, h1, h2⟩ := C60_effect_is_lets L calls s
  rw [h2]
  clear h2
  induction ws generalizing s with
  | nil => exact hs
  | cons w ws ih => exact ih (afterLet L s w) (hP s w.1 w.2 (h1 w List.mem_cons_self) hs) (fun w' h => h1 w' (List.mem_cons_of_mem _ h))

/-- The state after a `let` over a triple store arises by at most two operations of the store. -/
theorem let_graph_state (T : TripsOps τ) (P : τ → Prop) (name : Element) (n : Network)
    (h1 : ∀ t, P t → P (exec T t (.addCollection name.text)).2)
    (h2 : ∀ t ts, P t → P (exec T t (.addTriples name.text ts)).2) (t : τ) (h : P t) :
    P (runCalls (Graph.ops T) common [call "let" [.element name, .network n]] t).2 := by
  rw [common_let, letStore_graph]
  have a := h1 t h
  rcases e1 : exec T t (.addCollection name.text) with ⟨r, t1⟩
  rw [e1] at a
  simp only at a
  cases r with
  | ok u =>
    simp only
    have b := h2 t1 (n.map Graph.entryToTrip) a
    rcases e2 : exec T t1 (.addTriples name.text (n.map Graph.entryToTrip)) with ⟨r2, t2⟩
    rw [e2] at b
    cases r2 <;> exact b
  | err m => exact a
  | panic => exact a

theorem calls_keep {T : TripsOps τ} {I : τ → Prop} (hI : ∀ s op, I s → I (exec T s op).2) (P : τ → Prop) (calls : List Call)
    (h1 : ∀ name : Element, (∃ c ∈ calls, CallLets name c) → ∀ t, I t → P t → P (exec T t (.addCollection name.text)).2)
    (h2 : ∀ name : Element, (∃ c ∈ calls, CallLets name c) → ∀ t ts, I t → P t → P (exec T t (.addTriples name.text ts)).2)
    (t : τ) (hi : I t) (hp : P t) : I (runCalls (Graph.ops T) common calls t).2 ∧ P (runCalls (Graph.ops T) common calls t).2 := by
  refine C60_invariants (Graph.ops T) (fun t => I t ∧ P t) calls ?_ t ⟨hi, hp⟩
  intro s name n hn h
  exact let_graph_state T (fun t => I t ∧ P t) name n (fun t h => ⟨hI _ _ h.1, h1 name hn t h.1 h.2⟩)
    (fun t ts h => ⟨hI _ _ h.1, h2 name hn t ts h.1 h.2⟩) s h

theorem listed_addTriples {T : TripsOps τ} {I : τ → Prop} {b : Bool} {world : τ → World} {P : Op → Prop} (R : Refines T I b world P)
    {t : τ} (hi : I t) (c d : Str) (ts : BSet Trip) (hP : P (.addTriples c ts)) (h : Listed T t d) :
    Listed T (exec T t (.addTriples c ts)).2 d := by
  rw [(R.agrees _ hi).listed] at h
  rw [(R.agrees _ (R.inv _ _ hi)).listed, R.step _ _ hi hP]
  cases (exec T t (.addTriples c ts)).1 with
  | ok u =>
    simp only [applyEvent, apply]
    cases hc : world t c with
    | none => exact h
    | some p =>
      by_cases e : d = c
      · subst e; simp
      · simp only []; rw [World.set_other _ _ e]; exact h
  | err m => exact h
  | panic => exact h

theorem listed_addCollection {T : TripsOps τ} {I : τ → Prop} {b : Bool} {world : τ → World} {P : Op → Prop} (R : Refines T I b world P)
    {t : τ} (hi : I t) (c d : Str) (hP : P (.addCollection c)) (h : Listed T t d) :
    Listed T (exec T t (.addCollection c)).2 d := by
  rw [(R.agrees _ hi).listed] at h
  rw [(R.agrees _ (R.inv _ _ hi)).listed, R.step _ _ hi hP]
  cases (exec T t (.addCollection c)).1 with
  | ok u =>
    simp only [applyEvent, apply]
    by_cases e : d = c
    · subst e
      cases hc : world t d with
      | none => simp
      | some p => cases b <;> simp [hc]
    · cases hc : world t c with
      | none => simp only []; rw [World.set_other _ _ e]; exact h
      | some p =>
        cases b
        · exact h
        · simp only [if_true]; rw [World.set_other _ _ e]; exact h
  | err m => exact h
  | panic => exact h

/-- Adding a listed collection to the LMDB store leaves the stored state as it is. -/
theorem heed_addCollection_listed {s : Heed} (hg : Heed.Good s) (c : Str) (h : Listed Heed.ops s c) :
    (exec Heed.ops s (.addCollection c)).2 = s := by
  obtain ⟨i, hi⟩ := Option.isSome_iff_exists.mp ((heed_listed' hg c).mp h)
  show (exec (Heed.opsWith true) _ _).2 = _
  rw [Heed.exec_eq]
  show (Heed.addCollectionTx true s c).2.durable = s
  rcases Heed.addCollection_cases hg true c with ⟨_, e⟩ | ⟨h0, _⟩ | ⟨h0, _⟩
  · rw [e]; rfl
  · simp [hi] at h0
  · simp [hi] at h0

/-- C60: no script deletes a collection: over each of the three stores, in every reachable state, a collection that is listed is
still listed after any calls, however they end. -/
theorem C60_never_deletes (l : List Op) (calls : List Call) (d : Str) :
    (Listed Mem.ops (runOps Mem.ops Mem.new l).2 d →
      Listed Mem.ops (runCalls (Graph.ops Mem.ops) common calls (runOps Mem.ops Mem.new l).2).2 d) ∧
    (Listed Heed.ops (runOps Heed.ops Heed.new l).2 d →
      Listed Heed.ops (runCalls (Graph.ops Heed.ops) common calls (runOps Heed.ops Heed.new l).2).2 d) ∧
    (Listed Duck.ops (runOps Duck.ops Duck.new l).2 d →
      Listed Duck.ops (runCalls (Graph.ops Duck.ops) common calls (runOps Duck.ops Duck.new l).2).2 d) := by
  refine ⟨fun h => ?_, fun h => ?_, fun h => ?_⟩
  · exact (calls_keep mem_refines.inv (fun t => Listed Mem.ops t d) calls
      (fun n _ t hi hp => listed_addCollection mem_refines hi _ d trivial hp)
      (fun n _ t ts hi hp => listed_addTriples mem_refines hi _ d ts trivial hp) _ trivial h).2
  · refine (calls_keep heed_refines.inv (fun t => Listed Heed.ops t d) calls
      (fun n _ t hi hp => ?_)
      (fun n _ t ts hi hp => listed_addTriples heed_refines hi _ d ts trivial hp) _ (heed_good l) h).2
    by_cases e : d = n.text
    · subst e
      rw [heed_addCollection_listed hi _ hp]; exact hp
    · exact (heed_refines.isolated hi (.addCollection n.text) d e).2.mpr hp
  · exact (calls_keep duck_refines.inv (fun t => Listed Duck.ops t d) calls
      (fun n _ t hi hp => listed_addCollection duck_refines hi _ d trivial hp)
      (fun n _ t ts hi hp => listed_addTriples duck_refines hi _ d ts trivial hp) _ (duck_inv l) h).2

theorem kept_by_calls {T : TripsOps τ} {I : τ → Prop} {world : τ → World} {P : Op → Prop} (R : Refines T I false world P)
    (hP : ∀ c ts, P (.addTriples c ts)) (hc : ∀ t c, I t → (world t c).isSome → world (exec T t (.addCollection c)).2 c = world t c)
    {t : τ} (hi : I t) (calls : List Call) (d : Element) (hl : Listed T t d.text) (n : Network) (hn : (Graph.ops T).entries t d = .ok n) :
    ∃ n', (Graph.ops T).entries (runCalls (Graph.ops T) common calls t).2 d = .ok n' ∧ ∀ e ∈ n, e ∈ n' := by
  have hl' := ((R.agrees _ hi).listed _).mp hl
  obtain ⟨p, hp⟩ := Option.isSome_iff_exists.mp hl'
  obtain ⟨ts, e1, e2⟩ := (R.agrees _ hi).2 _ _ hp
  have key := calls_keep R.inv (fun t' => ∃ p', world t' d.text = some p' ∧ ∀ x, p x → p' x) calls
    (fun name _ t' hi' ⟨p', h1, h2⟩ => by
      by_cases e : d.text = name.text
      · rw [← e, hc _ _ hi' (by rw [h1]; rfl)]; exact ⟨p', h1, h2⟩
      · rw [R.other _ _ _ hi' e]; exact ⟨p', h1, h2⟩)
    (fun name _ t' ts' hi' ⟨p', h1, h2⟩ => by
      by_cases e : d.text = name.text
      · rw [R.step _ _ hi' (hP _ _), ← e]
        cases (exec T t' (.addTriples d.text ts')).1 with
        | ok u =>
          refine ⟨fun x => p' x ∨ x ∈ ts', ?_, fun x hx => .inl (h2 x hx)⟩
          simp only [applyEvent, apply, h1]
          simp [World.set]
        | err m => exact ⟨p', h1, h2⟩
        | panic => exact ⟨p', h1, h2⟩
      · rw [R.other _ _ _ hi' e]; exact ⟨p', h1, h2⟩) t hi ⟨p, hp, fun _ h => h⟩
  obtain ⟨hi2, p', h1, h2⟩ := key
  obtain ⟨ts', e1', e2'⟩ := (R.agrees _ hi2).2 _ _ h1
  have hn' : ts.map Graph.tripToEntry = n := by
    have : (Graph.ops T).entries t d = .ok (ts.map Graph.tripToEntry) := by
      show (T.triples t d.text).map _ = _
      rw [e1]; rfl
    rw [this] at hn; exact Res.ok.inj hn
  refine ⟨ts'.map Graph.tripToEntry, ?_, ?_⟩
  · show (T.triples _ d.text).map _ = _
    rw [e1']; rfl
  · intro e he
    rw [← hn', BSet.mem_map] at he
    obtain ⟨x, hx, rfl⟩ := he
    rw [BSet.mem_map]
    exact ⟨x, (e2' x).mpr (h2 x ((e2 x).mp hx)), rfl⟩

/-- C60: on the persistent stores, in every reachable state, no script takes an entry away: whatever a collection held, it holds after any
calls, however they end.  (On the in-memory store a second `let` of a name replaces, see C17.) -/
theorem C60_never_loses (l : List Op) (calls : List Call) (d : Element) (n : Network) :
    (let s := (runOps Heed.ops Heed.new l).2
     Listed Heed.ops s d.text → (Graph.ops Heed.ops).entries s d = .ok n →
       ∃ n', (Graph.ops Heed.ops).entries (runCalls (Graph.ops Heed.ops) common calls s).2 d = .ok n' ∧ ∀ e ∈ n, e ∈ n') ∧
    (let s := (runOps Duck.ops Duck.new l).2
     Listed Duck.ops s d.text → (Graph.ops Duck.ops).entries s d = .ok n →
       ∃ n', (Graph.ops Duck.ops).entries (runCalls (Graph.ops Duck.ops) common calls s).2 d = .ok n' ∧ ∀ e ∈ n, e ∈ n') := by
  constructor
  · exact fun hl hn => kept_by_calls heed_refines (fun _ _ => trivial) (fun t c hi h => by
      rw [heed_addCollection_listed hi c (((heed_refines.agrees _ hi).listed c).mpr h)]) (heed_good l) calls d hl n hn
  · exact fun hl hn => kept_by_calls duck_refines (fun _ _ => trivial) (fun t c hi h => by
      rw [duck_refines.step _ _ hi trivial]
      obtain ⟨p, hp⟩ := Option.isSome_iff_exists.mp h
      cases (exec Duck.ops t (.addCollection c)).1 with
      | ok u => simp [applyEvent, apply, hp]
      | err m => rfl
      | panic => rfl) (duck_inv l) calls d hl n hn

/-- A collection with contents, to which a script adds. -/
example : let s := (runOps Heed.ops Heed.new [.addCollection (lit "H"), .addTriples (lit "H") (BSet.ofList [⟨lit "x", lit "y", lit "z"⟩])]).2
    Listed Heed.ops s (lit "H") ∧ (Graph.ops Heed.ops).entries s (.of (lit "H")) = .ok (BSet.ofList [.role (.of (lit "x")) (.of (lit "z")) (.of (lit "y"))]) ∧
    (Graph.ops Heed.ops).entries (runCalls (Graph.ops Heed.ops) common [call "let" [.element (.of (lit "H")), .network sampleNet]] s).2 (.of (lit "H")) ≠
      (Graph.ops Heed.ops).entries s (.of (lit "H")) :=
  ⟨⟨[lit "H"], by decide +kernel, by simp⟩, by decide +kernel, by decide +kernel⟩
/-- The in-memory store does lose entries this way. -/
example : let s := (runOps Mem.ops Mem.new [.addCollection (lit "H"), .addTriples (lit "H") (BSet.ofList [⟨lit "x", lit "y", lit "z"⟩])]).2
    (Graph.ops Mem.ops).entries (runCalls (Graph.ops Mem.ops) common [call "let" [.element (.of (lit "H")), .network ∅]] s).2 (.of (lit "H")) =
      .ok ∅ := by decide +kernel

/-! ## C61 -/

theorem frame_of {T : TripsOps τ} {I : τ → Prop} {b : Bool} {world : τ → World} {P : Op → Prop} (R : Refines T I b world P)
    {t : τ} (hi : I t) (calls : List Call) (d : Element) (hd : ∀ c ∈ calls, ∀ name : Element, CallLets name c → name.text ≠ d.text) :
    (Graph.ops T).entries (runCalls (Graph.ops T) common calls t).2 d = (Graph.ops T).entries t d ∧
    (Listed T (runCalls (Graph.ops T) common calls t).2 d.text ↔ Listed T t d.text) := by
  have hd' : ∀ name : Element, (∃ c ∈ calls, CallLets name c) → d.text ≠ name.text := fun name ⟨c, h, h'⟩ e => hd c h name h' e.symm
  have := (calls_keep R.inv (fun t' => T.triples t' d.text = T.triples t d.text ∧ (Listed T t' d.text ↔ Listed T t d.text)) calls
    (fun n hn t' hi' hp => by
      obtain ⟨h1, h2⟩ := R.isolated hi' (.addCollection n.text) d.text (hd' n hn)
      exact ⟨h1.trans hp.1, h2.trans hp.2⟩)
    (fun n hn t' ts hi' hp => by
      obtain ⟨h1, h2⟩ := R.isolated hi' (.addTriples n.text ts) d.text (hd' n hn)
      exact ⟨h1.trans hp.1, h2.trans hp.2⟩) t hi ⟨rfl, Iff.rfl⟩).2
  refine ⟨?_, this.2⟩
  show (T.triples _ _).map _ = (T.triples _ _).map _
  rw [this.1]

/-- C61: calls in which no `let` targets a collection, at the top or in any quote, leave its entries and its existence as they were,
over each store and however the calls end. -/
theorem C61_frame (l : List Op) (calls : List Call) (d : Element)
    (hd : ∀ c ∈ calls, ∀ name : Element, CallLets name c → name.text ≠ d.text) :
    (let s := (runOps Mem.ops Mem.new l).2
     let s' := (runCalls (Graph.ops Mem.ops) common calls s).2
     (Graph.ops Mem.ops).entries s' d = (Graph.ops Mem.ops).entries s d ∧ (Listed Mem.ops s' d.text ↔ Listed Mem.ops s d.text)) ∧
    (let s := (runOps Heed.ops Heed.new l).2
     let s' := (runCalls (Graph.ops Heed.ops) common calls s).2
     (Graph.ops Heed.ops).entries s' d = (Graph.ops Heed.ops).entries s d ∧ (Listed Heed.ops s' d.text ↔ Listed Heed.ops s d.text)) ∧
    (let s := (runOps Duck.ops Duck.new l).2
     let s' := (runCalls (Graph.ops Duck.ops) common calls s).2
     (Graph.ops Duck.ops).entries s' d = (Graph.ops Duck.ops).entries s d ∧ (Listed Duck.ops s' d.text ↔ Listed Duck.ops s d.text)) :=
  ⟨frame_of mem_refines trivial calls d hd, frame_of heed_refines (heed_good l) calls d hd,
   frame_of duck_refines (duck_inv l) calls d hd⟩

/-- Calls with a `let` hidden in a quote; the only targets are `G` and `H`. -/
def hiddenLet : List Call :=
  [call "assert-fail" [.quote [.element (.of (lit "let")), .element (.of (lit "G")), .element (.of (lit "x"))]],
   call "let" [.element (.of (lit "H")), .network sampleNet]]

example : (∀ c ∈ hiddenLet, ∀ name : Element, CallLets name c → name.text ≠ lit "T") ∧
    CallLets (.of (lit "G")) (hiddenLet.headD (call "id" [])) := by
  refine ⟨?_, ?_⟩
  · intro c hc name h
    simp only [hiddenLet, List.mem_cons, List.not_mem_nil, or_false] at hc
    rcases hc with rfl | rfl
    · rcases h with ⟨h, _⟩ | h
      · exact absurd h (by decide)
      · simp only [call, LetsInList, LetsIn, List.cons.injEq, Value.element.injEq, or_false] at h
        obtain ⟨e, rest, ⟨_, rfl, _⟩, _⟩ := h
        decide
    · rcases h with ⟨_, rest, h⟩ | h
      · simp only [call, List.cons.injEq, Value.element.injEq] at h
        obtain ⟨rfl, _⟩ := h
        decide
      · simp only [call, LetsInList, LetsIn, or_false] at h
  · simp [hiddenLet, CallLets, call, LetsInList, LetsIn, Element.of]

/-! ## C18, for every argument -/

mutual
theorem mentions_of_lets (n : Element) : ∀ v, LetsIn n v → Mentions (lit "let") v
  | .element _, h => by simp only [LetsIn] at h
  | .network _, h => by simp only [LetsIn] at h
  | .quote vs, h => by
    simp only [LetsIn, Mentions] at *
    rcases h with ⟨e, rest, h1, h2⟩ | h
    · exact .inl ⟨e, _, h1, h2⟩
    · exact .inr (mentionsList_of_lets n vs h)
theorem mentionsList_of_lets (n : Element) : ∀ vs, LetsInList n vs → MentionsList (lit "let") vs
  | [], h => by simp only [LetsInList] at h
  | v :: vs, h => by
    simp only [LetsInList, MentionsList] at *
    rcases h with h | h
    · exact .inl (mentions_of_lets n v h)
    · exact .inr (mentionsList_of_lets n vs h)
end

/-- C18, over each store and for whatever arguments (a network, a quote to run, too few or too many): a `let` of one name leaves the entries of every other
collection, and whether it is listed, as they were, however it ends, provided a quote among the arguments does not itself call `let`. -/
theorem C18_any_argument (l : List Op) (name d : Element) (args : List Value) (ha : ¬ MentionsList (lit "let") args) (hd : d.text ≠ name.text) :
    let calls := [call "let" (.element name :: args)]
    (let s := (runOps Mem.ops Mem.new l).2
     let s' := (runCalls (Graph.ops Mem.ops) common calls s).2
     (Graph.ops Mem.ops).entries s' d = (Graph.ops Mem.ops).entries s d ∧ (Listed Mem.ops s' d.text ↔ Listed Mem.ops s d.text)) ∧
    (let s := (runOps Heed.ops Heed.new l).2
     let s' := (runCalls (Graph.ops Heed.ops) common calls s).2
     (Graph.ops Heed.ops).entries s' d = (Graph.ops Heed.ops).entries s d ∧ (Listed Heed.ops s' d.text ↔ Listed Heed.ops s d.text)) ∧
    (let s := (runOps Duck.ops Duck.new l).2
     let s' := (runCalls (Graph.ops Duck.ops) common calls s).2
     (Graph.ops Duck.ops).entries s' d = (Graph.ops Duck.ops).entries s d ∧ (Listed Duck.ops s' d.text ↔ Listed Duck.ops s d.text)) := by
  intro calls
  refine C61_frame l calls d fun c hc n hn => ?_
  rw [List.mem_singleton] at hc
  subst hc
  rcases hn with ⟨_, rest, h⟩ | h
  · simp only [call, List.cons.injEq, Value.element.injEq] at h
    rw [← h.1]; exact fun e => hd e.symm
  · simp only [call, LetsInList, LetsIn, false_or] at h
    exact (ha (mentionsList_of_lets n args h)).elim

/-- A quote that reads another collection mentions no `let`. -/
example : ¬ MentionsList (lit "let") [.quote [.element (.of (lit "read")), .element (.of (lit "G"))]] ∧ (Element.of (lit "G")).text ≠ (Element.of (lit "H")).text := by
  refine ⟨?_, by decide⟩
  simp only [MentionsList, Mentions, or_false, not_exists, List.cons.injEq, Value.element.injEq]
  rintro e rest ⟨⟨rfl, _⟩, h⟩
  exact absurd h (by decide)

end Props
end Verif
