import Verif.Spec.Monotone
import Verif.Props.Effects
import Verif.Props.ScriptsShared
import Verif.Props.Commands
import Verif.Props.Parsing
/-!
# C94: more in the store, more in the result
-/
namespace Verif
namespace Props
open Spec Eval Steps

/-- What the store operations must do for scripts to be monotone.  `R k s t`: `t` has more than `s`, and room for `k` more identifiers; `N` are the
collections written. -/
structure Grows (L : LigOps σ) (N : Element → Prop) (R : Nat → σ → σ → Prop) : Prop where
  weaken : ∀ k j s t, R (j + k) s t → R k s t
  entries : ∀ k s t c n, R k s t → L.entries s c = .ok n → ∃ n', L.entries t c = .ok n' ∧ ∀ e ∈ n, e ∈ n'
  filter : ∀ k s t c p n, R k s t → NoNamedVars p → L.filter s c p = .ok n → ∃ n', L.filter t c p = .ok n' ∧ ∀ e ∈ n, e ∈ n'
  store : ∀ k s t c n n' v s', N c → R (progCost L (letP c n') t + k) s t → (∀ e ∈ n, e ∈ n') → letStore L c n s = (.ok v, s') →
    ∃ t', letStore L c n' t = (.ok v, t') ∧ R k s' t'

theorem progCost_andThen (L : LigOps σ) (k : Res Value → Prog) (p : Prog) : ∀ s, progCost L (p.andThen k) s =
    progCost L p s + progCost L (k (p.run L s).1) (p.run L s).2 := by
  induction p with
  | ret r => intro s; simp [Prog.andThen, progCost, Prog.run]
  | ask q f ih => intro s; simp only [Prog.andThen, progCost, Prog.run, ih]; omega

section
variable {σ : Type u} {L : LigOps σ} {N : Element → Prop} {R : Nat → σ → σ → Prop}

theorem grow_quote (G : Grows L N R) {q : List Value} (hp : Positive q) (hN : ∀ c, LetsIn c (.quote q) → N c) : ∀ {k : Nat} {s t s' : σ} {v : Value},
    R (progCost L (runQuoteP q) t + k) s t → runQuote L common q s = (.ok v, s') →
    ∃ v' t', runQuote L common q t = (.ok v', t') ∧ AtMost v v' ∧ R k s' t' := by
  induction hp with
  | nil =>
    intro k s t s' v hR h
    rw [runQuote] at h ⊢
    cases h
    exact ⟨_, _, rfl, .same _, G.weaken _ _ _ _ hR⟩
  | @noCall w vs hw =>
    intro k s t s' v hR h
    cases w with
    | element e => exact absurd rfl (hw e)
    | quote _ => rw [runQuote] at h; cases h
    | network _ => rw [runQuote] at h; cases h
  | @call name args h1 h2 h3 h4 ih =>
    intro k s t s' v hR h
    have hw := G.weaken _ _ _ _ hR
    rw [runQuote] at h ⊢
    cases hg : (common (σ := σ)).get? name.text with
    | none => rw [hg] at h; cases h
    | some c =>
      rw [hg] at h
      have hm : (name.text, c) ∈ (common : Commands σ) := mem_of_lookup hg
      simp only [common, List.mem_cons, Prod.mk.injEq, List.not_mem_nil, or_false] at hm
      rcases hm with ⟨hn, rfl⟩ | ⟨hn, rfl⟩ | ⟨hn, rfl⟩ | ⟨hn, rfl⟩ | ⟨hn, rfl⟩ | ⟨hn, rfl⟩ | ⟨hn, rfl⟩ | ⟨hn, rfl⟩ | ⟨hn, rfl⟩
      · exact absurd hn h1
      · exact absurd hn h2
      · simp only [runFun, Prod.mk.injEq, Res.ok.injEq] at h ⊢
        obtain ⟨rfl, rfl⟩ := h
        exact ⟨_, _, ⟨rfl, rfl⟩, .same _, hw⟩
      · have hc : runQuoteP (.element name :: args) = runFunP (.builtin .let_) args := by
          rw [runQuoteP, hn]; rfl
        rw [hc] at hR
        match args, h, h4, ih, hR, hN with
        | [], h, _, _, _, _ => simp only [runFun] at h; cases h
        | [_], h, _, _, _, _ => simp only [runFun] at h; cases h
        | _ :: _ :: _ :: _, h, _, _, _, _ => simp only [runFun] at h; cases h
        | [.quote _, _], h, _, _, _, _ => simp only [runFun] at h; cases h
        | [.network _, _], h, _, _, _, _ => simp only [runFun] at h; cases h
        | [.element _, .element _], h, _, _, _, _ => simp only [runFun] at h; cases h
        | [.element nm, .network net], h, _, _, hR, hN =>
          have hnm : N nm := hN nm (by rw [LetsIn]; exact .inl ⟨_, _, rfl, hn⟩)
          simp only [runFun] at h ⊢
          simp only [runFunP] at hR
          obtain ⟨t', h', hR'⟩ := G.store k s t nm net net v s' hnm hR (fun _ h => h) h
          exact ⟨_, _, h', .same _, hR'⟩
        | [.element nm, .quote q], h, _, ih, hR, hN =>
          have hnm : N nm := hN nm (by rw [LetsIn]; exact .inl ⟨_, _, rfl, hn⟩)
          have hq : ∀ c, LetsIn c (.quote q) → N c := fun c h => hN c (by
            rw [LetsIn]; refine .inr ?_; simp only [LetsInList]; exact .inr (.inr (.inl h)))
          simp only [runFun, evalArg] at h ⊢
          simp only [runFunP, evalArgP, progCost_andThen, run_runQuoteP, Nat.add_assoc] at hR
          rcases e : runQuote L common q s with ⟨r, s1⟩
          rw [e] at h
          cases r with
          | err m => cases h
          | panic => cases h
          | ok w =>
            cases w with
            | element x => cases h
            | quote x => cases h
            | network x =>
              simp only at h
              obtain ⟨v', t1, h', hle, hR'⟩ := ih hn _ q rfl hq hR e
              rw [h'] at hR' ⊢
              cases hle with
              | same =>
                simp only at hR' ⊢
                obtain ⟨t', h', hR'⟩ := G.store k s1 t1 nm x x v s' hnm hR' (fun _ h => h) h
                exact ⟨_, _, h', .same _, hR'⟩
              | @network _ y hxy =>
                simp only at hR' ⊢
                obtain ⟨t', h', hR'⟩ := G.store k s1 t1 nm x y v s' hnm hR' hxy h
                exact ⟨_, _, h', .same _, hR'⟩
      · simp only [runFun, Prod.mk.injEq] at h ⊢
        obtain ⟨h, rfl⟩ := h
        match args, h with
        | [.element nm], h =>
          simp only [Eval.read] at h ⊢
          cases e : L.entries s nm with
          | err m => rw [e] at h; cases h
          | panic => rw [e] at h; cases h
          | ok n =>
            rw [e] at h
            cases h
            obtain ⟨n', h', hs⟩ := G.entries k s t nm n hw e
            rw [h']; exact ⟨_, _, ⟨rfl, rfl⟩, .network hs, hw⟩
      · simp only [runFun, Prod.mk.injEq] at h ⊢
        obtain ⟨h, rfl⟩ := h
        exact ⟨_, _, ⟨h, rfl⟩, .same _, hw⟩
      · simp only [runFun, Prod.mk.injEq] at h ⊢
        obtain ⟨h, rfl⟩ := h
        exact ⟨_, _, ⟨h, rfl⟩, .same _, hw⟩
      · simp only [runFun, Prod.mk.injEq] at h ⊢
        obtain ⟨h, rfl⟩ := h
        exact ⟨_, _, ⟨h, rfl⟩, .same _, hw⟩
      · simp only [runFun, Prod.mk.injEq] at h ⊢
        obtain ⟨h, rfl⟩ := h
        match args, h, h3 with
        | [.element c, .element a, .element r, .element b], h, h3 =>
          have h3 := h3 hn
          simp only [filterCmd] at h ⊢
          cases e : L.filter s c (.role a b r) with
          | err m => rw [e] at h; cases h
          | panic => rw [e] at h; cases h
          | ok n =>
            rw [e] at h
            cases h
            obtain ⟨n', h', hs⟩ := G.filter k s t c (.role a b r) n hw ⟨h3 a (by simp), h3 r (by simp), h3 b (by simp)⟩ e
            rw [h']; exact ⟨_, _, ⟨rfl, rfl⟩, .network hs, hw⟩

theorem grow_calls (G : Grows L N R) (cs : List Call) (hp : ∀ c ∈ cs, Positive (.element c.name :: c.args)) (hN : ∀ c ∈ cs, ∀ n, CallLets n c → N n) :
    ∀ {k : Nat} {s t s' : σ} {u u' v : Value}, R (progCost L (runLoopP cs u') t + k) s t → AtMost u u' → runCallsLoop L common cs u s = (.ok v, s') →
    ∃ v' t', runCallsLoop L common cs u' t = (.ok v', t') ∧ AtMost v v' ∧ R k s' t' := by
  induction cs with
  | nil =>
    intro k s t s' u u' v hR hu h
    simp only [runCallsLoop, Prod.mk.injEq, Res.ok.injEq] at h ⊢
    obtain ⟨rfl, rfl⟩ := h
    exact ⟨_, _, ⟨rfl, rfl⟩, hu, G.weaken _ _ _ _ hR⟩
  | cons c cs ih =>
    intro k s t s' u u' v hR hu h
    rw [runCallsLoop] at h ⊢
    have hl : ∀ n, LetsIn n (.quote (.element c.name :: c.args)) → N n := by
      intro n h
      refine hN c List.mem_cons_self n ?_
      rw [LetsIn] at h
      rcases h with ⟨e, rest, h1, h2⟩ | h
      · injection h1 with h1 h3
        injection h1 with h1
        subst h1
        exact .inl ⟨h2, rest, h3⟩
      · simp only [LetsInList, LetsIn, false_or] at h
        exact .inr h
    have hq : runQuoteP (.element c.name :: c.args) = callP c := by rw [runQuoteP, callP]
    have hc : ∀ s, runQuote L common (.element c.name :: c.args) s = runCall L common c s := fun s => by rw [runQuote, runCall]
    have key := @grow_quote σ L N R G _ (hp c List.mem_cons_self) hl
      (progCost L ((fun r => match r with | .ok res => runLoopP cs res | .err m => .ret (.err m) | .panic => .ret .panic) ((callP c).run L t).1)
        ((callP c).run L t).2 + k) s t
    rw [hc, hc, hq] at key
    simp only [runLoopP, progCost_andThen, Nat.add_assoc] at hR
    have hrun : (callP c).run L t = runCall L common c t := by
      rw [← hc, ← run_runQuoteP, hq]
    rw [hrun] at hR key
    rcases e : runCall L common c s with ⟨r, s1⟩
    rw [e] at h key
    cases r with
    | err m => cases h
    | panic => cases h
    | ok w =>
      obtain ⟨v', t1, h', hle, hR'⟩ := key hR rfl
      rw [h'] at hR' ⊢
      exact ih (fun c h => hp c (List.mem_cons_of_mem _ h)) (fun c h => hN c (List.mem_cons_of_mem _ h)) hR' hle h

end

/-! ## The stores -/

/-- The second world has the collections of the first with at least their triples. -/
def WorldLe (w w' : World) : Prop := ∀ c p, w c = some p → ∃ p', w' c = some p' ∧ ∀ x, p x → p' x

/-- What a successful `let` does to the world. -/
def growLetWorld (b : Bool) (w : World) (c : Str) (ts : BSet Trip) : World :=
  w.set c (some fun x => (b = false ∧ ∃ p, w c = some p ∧ p x) ∨ x ∈ ts)

theorem letWorld_le {b : Bool} {w w' : World} (h : WorldLe w w') {c : Str} {ts ts' : BSet Trip} (hs : ∀ x ∈ ts, x ∈ ts') :
    WorldLe (growLetWorld b w c ts) (growLetWorld b w' c ts') := by
  intro d p hp
  by_cases e : d = c
  · subst e
    rw [growLetWorld, World.set_same] at hp
    cases hp
    refine ⟨_, World.set_same .., ?_⟩
    rintro x (⟨hb, p, hp, hx⟩ | hx)
    · obtain ⟨p', hp', hle⟩ := h _ _ hp
      exact .inl ⟨hb, p', hp', hle x hx⟩
    · exact .inr (hs x hx)
  · rw [growLetWorld, World.set_other _ _ e] at hp
    obtain ⟨p', hp', hle⟩ := h _ _ hp
    exact ⟨p', by rw [growLetWorld, World.set_other _ _ e]; exact hp', hle⟩

theorem let_outcomes (T : TripsOps σ) (c : Element) (n : Network) (s : σ) :
    (letStore (Graph.ops T) c n s).1 = .panic ∨ (letStore (Graph.ops T) c n s).1 = .ok emptyNet := by
  rw [letStore_graph]
  rcases exec T s (.addCollection c.text) with ⟨r, s1⟩
  cases r with
  | ok u =>
    simp only
    rcases exec T s1 (.addTriples c.text (n.map Graph.entryToTrip)) with ⟨r, s2⟩
    cases r <;> simp
  | err m => exact .inl rfl
  | panic => exact .inl rfl

section
variable {σ : Type} {T : TripsOps σ} {I : σ → Prop} {b : Bool} {world : σ → World} {P : Op → Prop} {may : Prop}

theorem grow_let_world (R : Refines T I b world P) {c : Element} {n : Network} (h1 : P (.addCollection c.text)) (h2 : ∀ ts, P (.addTriples c.text ts))
    {s s' : σ} {v : Value} (hi : I s) (h : letStore (Graph.ops T) c n s = (.ok v, s')) :
    I s' ∧ world s' = growLetWorld b (world s) c.text (n.map Graph.entryToTrip) := by
  rw [letStore_graph] at h
  have a1 := R.inv _ (.addCollection c.text) hi
  have b1 := R.step _ (.addCollection c.text) hi h1
  rcases e1 : exec T s (.addCollection c.text) with ⟨r, s1⟩
  rw [e1] at h a1 b1
  cases r with
  | ok u =>
    simp only at h a1 b1
    have a2 := R.inv _ (.addTriples c.text (n.map Graph.entryToTrip)) a1
    have b2 := R.step _ (.addTriples c.text (n.map Graph.entryToTrip)) a1 (h2 _)
    rcases e2 : exec T s1 (.addTriples c.text (n.map Graph.entryToTrip)) with ⟨r, s2⟩
    rw [e2] at h a2 b2
    cases r with
    | ok u =>
      simp only [Prod.mk.injEq] at h a2 b2
      obtain ⟨-, rfl⟩ := h
      refine ⟨a2, ?_⟩
      rw [b2, b1]
      simp only [applyEvent, apply]
      cases hw : world s c.text with
      | none =>
        simp only [World.set_same]
        funext d
        by_cases e : d = c.text
        · subst e; simp [World.set_same, growLetWorld, hw]
        · simp only [World.set_other _ _ e, growLetWorld]
      | some p =>
        cases b with
        | true =>
          simp only [if_true, World.set_same]
          funext d
          by_cases e : d = c.text
          · subst e; simp [World.set_same, growLetWorld]
          · simp only [World.set_other _ _ e, growLetWorld]
        | false =>
          simp only [Bool.false_eq_true, if_false, hw]
          funext d
          by_cases e : d = c.text
          · subst e; simp [World.set_same, growLetWorld, hw]
          · simp only [World.set_other _ _ e, growLetWorld]
    | err m => cases h
    | panic => cases h
  | err m => cases h
  | panic => cases h

theorem grow_entries (R : Refines T I b world P)
    (hread : ∀ s t c ts, I s → I t → world s c = none → T.triples s c = .ok ts → ∃ ts', T.triples t c = .ok ts' ∧ ∀ x ∈ ts, x ∈ ts')
    {s t : σ} (hs : I s) (ht : I t) (hle : WorldLe (world s) (world t)) (c : Element) (n : Network) (h : (Graph.ops T).entries s c = .ok n) :
    ∃ n', (Graph.ops T).entries t c = .ok n' ∧ ∀ e ∈ n, e ∈ n' := by
  have h : (T.triples s c.text).map _ = .ok n := h
  have key : ∃ ts ts', T.triples s c.text = .ok ts ∧ T.triples t c.text = .ok ts' ∧ ∀ x ∈ ts, x ∈ ts' := by
    cases hw : world s c.text with
    | none =>
      cases e : T.triples s c.text with
      | ok ts =>
        obtain ⟨ts', h1, h2⟩ := hread s t _ ts hs ht hw e
        exact ⟨ts, ts', rfl, h1, h2⟩
      | err m => rw [e] at h; cases h
      | panic => rw [e] at h; cases h
    | some p =>
      obtain ⟨p', hp', hpp⟩ := hle _ _ hw
      obtain ⟨ts, e1, e2⟩ := (R.agrees s hs).2 _ _ hw
      obtain ⟨ts', e1', e2'⟩ := (R.agrees t ht).2 _ _ hp'
      exact ⟨ts, ts', e1, e1', fun x hx => (e2' x).mpr (hpp x ((e2 x).mp hx))⟩
  obtain ⟨ts, ts', h1, h2, h3⟩ := key
  rw [h1] at h
  cases h
  refine ⟨ts'.map Graph.tripToEntry, by show (T.triples t c.text).map _ = _; rw [h2]; rfl, fun e he => ?_⟩
  rw [BSet.mem_map] at he ⊢
  obtain ⟨x, hx, rfl⟩ := he
  exact ⟨x, h3 x hx, rfl⟩

theorem let_ok {c : Element} {n : Network} {s s' : σ} {v : Value} (h : letStore (Graph.ops T) c n s = (.ok v, s')) : v = emptyNet := by
  rcases let_outcomes T c n s with h' | h' <;> rw [h] at h'
  · cases h'
  · exact Res.ok.inj h'

theorem trips_le {n n' : Network} (h : ∀ e ∈ n, e ∈ n') : ∀ x ∈ n.map Graph.entryToTrip, x ∈ n'.map Graph.entryToTrip := by
  intro x hx
  rw [BSet.mem_map] at hx ⊢
  obtain ⟨e, he, rfl⟩ := hx
  exact ⟨e, h e he, rfl⟩

theorem fewer_iff (R : Refines T I b world P) {s t : σ} (hs : I s) (ht : I t) : Fewer T s t ↔ WorldLe (world s) (world t) := by
  constructor
  · intro h c p hp
    obtain ⟨h1, n, n', h2, h3, h4⟩ := h (.of c) (((R.agrees s hs).listed c).mpr (by rw [hp]; rfl))
    obtain ⟨p', hp'⟩ := Option.isSome_iff_exists.mp (((R.agrees t ht).listed c).mp h1)
    refine ⟨p', hp', fun x hx => ?_⟩
    obtain ⟨ts, e1, e2⟩ := (R.agrees s hs).2 _ _ hp
    obtain ⟨ts', e1', e2'⟩ := (R.agrees t ht).2 _ _ hp'
    have h2 : (T.triples s c).map _ = .ok n := h2
    have h3 : (T.triples t c).map _ = .ok n' := h3
    rw [e1] at h2
    rw [e1'] at h3
    cases h2
    cases h3
    have := h4 (Graph.tripToEntry x) (by rw [BSet.mem_map]; exact ⟨x, (e2 x).mpr hx, rfl⟩)
    rw [BSet.mem_map] at this
    obtain ⟨y, hy, e⟩ := this
    cases Graph.tripToEntry_inj e
    exact (e2' _).mp hy
  · intro h c hc
    obtain ⟨p, hp⟩ := Option.isSome_iff_exists.mp (((R.agrees s hs).listed _).mp hc)
    obtain ⟨p', hp', hpp⟩ := h _ _ hp
    refine ⟨((R.agrees t ht).listed _).mpr (by rw [hp']; rfl), ?_⟩
    obtain ⟨ts, e1, e2⟩ := (R.agrees s hs).2 _ _ hp
    obtain ⟨ts', e1', e2'⟩ := (R.agrees t ht).2 _ _ hp'
    refine ⟨ts.map Graph.tripToEntry, ts'.map Graph.tripToEntry, by show (T.triples s c.text).map _ = _; rw [e1]; rfl,
      by show (T.triples t c.text).map _ = _; rw [e1']; rfl, fun e he => ?_⟩
    rw [BSet.mem_map] at he ⊢
    obtain ⟨x, hx, rfl⟩ := he
    exact ⟨x, (e2' x).mpr (hpp x ((e2 x).mp hx)), rfl⟩

end

theorem mem_let (c : Element) (n : Network) (s : Mem) : (letStore (Graph.ops Mem.ops) c n s).1 ≠ .panic := by
  rw [letStore_graph]
  simp only [exec, Mem.ops, Mem.addCollection, Mem.addTriples, BMap.get?_insert_self]
  simp

theorem mem_grows : Grows (Graph.ops Mem.ops) (fun _ => True) (fun _ s t => WorldLe (Mem.world s) (Mem.world t)) where
  weaken _ _ _ _ h := h
  entries k s t c n h := grow_entries mem_refines (fun s t c ts _ _ hw h => by simp [Mem.ops, Mem.triples, Mem.world_none.mp hw] at h) trivial trivial h c n
  filter k s t c p n hle hv h := by
    by_cases hs : Listed Mem.ops s c.text
    · obtain ⟨h1, n1, n2, h2, h3, h4⟩ := (fewer_iff mem_refines trivial trivial).mpr hle c hs
      obtain ⟨all, sel, a1, a2, a3⟩ := C36_filter_agrees_with_entries s c p hv hs
      obtain ⟨all', sel', b1, b2, b3⟩ := C36_filter_agrees_with_entries t c p hv h1
      cases h2.symm.trans a1
      cases h3.symm.trans b1
      cases h.symm.trans a2
      exact ⟨sel', b2, fun e he => (b3 e).mpr ⟨h4 e ((a3 e).mp he).1, ((a3 e).mp he).2⟩⟩
    · have := (C36_missing s c p hs).2
      cases h.symm.trans this
  store k s t c n n' v s' _ hle hn h := by
    cases let_ok h
    have hw := (grow_let_world mem_refines trivial (fun _ => trivial) trivial h).2
    rcases e : letStore (Graph.ops Mem.ops) c n' t with ⟨r, t'⟩
    have ho := let_outcomes Mem.ops c n' t
    have hp := mem_let c n' t
    rw [e] at ho hp
    rcases ho with ho | ho
    · exact absurd ho hp
    · simp only at ho
      subst ho
      refine ⟨t', rfl, ?_⟩
      rw [hw, (grow_let_world mem_refines trivial (fun _ => trivial) trivial e).2]
      exact letWorld_le hle (trips_le hn)

theorem heed_let_world {s s' : Heed} {c : Element} {n : Network} {v : Value} (hg : Heed.Good s)
    (h : letStore (Graph.ops Heed.ops) c n s = (.ok v, s')) :
    Heed.lmdbKey c.text = true ∧ Heed.Good s' ∧ Heed.worldOf s' = growLetWorld false (Heed.worldOf s) c.text (n.map Graph.entryToTrip) := by
  by_cases hk : Heed.lmdbKey c.text = true
  · exact ⟨hk, grow_let_world heed_refines hk (fun _ => trivial) hg h⟩
  · exfalso
    rw [letStore_graph] at h
    have a1 := heed_refines.inv _ (.addCollection c.text) hg
    rcases e1 : exec Heed.ops s (.addCollection c.text) with ⟨r, s1⟩
    rw [e1] at h a1
    cases r with
    | ok u =>
      simp only at h a1
      have hw : Heed.worldOf s1 c.text = none := by
        cases e : s1.collToId.get? c.text with
        | none => simp only [Heed.worldOf, Heed.world, e, Option.map_none]
        | some i => exact absurd (a1.c2i _ _ e).2 hk
      have := Heed.outcome_addTriples_missing a1 true c.text (n.map Graph.entryToTrip) hw
      have e2 : (exec Heed.ops s1 (.addTriples c.text (n.map Graph.entryToTrip))).1 = .panic := by
        show (exec (Heed.opsWith true) _ _).1 = _
        rw [Heed.exec_eq]; exact this
      rcases e3 : exec Heed.ops s1 (.addTriples c.text (n.map Graph.entryToTrip)) with ⟨r, s2⟩
      rw [e3] at h e2
      simp only at e2
      subst e2
      cases h
    | err m => cases h
    | panic => cases h

/-- With room for its cost, a `let` of a legal name succeeds on LMDB. -/
theorem heed_let_ok {t : Heed} {c : Element} {n : Network} {k : Nat} (hg : Heed.Good t) (hk : Heed.lmdbKey c.text = true)
    (hr : Heed.Room t (progCost (Graph.ops Heed.ops) (letP c n) t + k)) :
    ∃ t', letStore (Graph.ops Heed.ops) c n t = (.ok emptyNet, t') ∧ Heed.Room t' k := by
  have h1 : (exec Heed.ops t (.addCollection c.text)).1 = .ok () := by
    show (exec (Heed.opsWith true) t _).1 = _
    rw [Heed.exec_eq]
    refine Heed.outcome_addCollection hg true c.text ?_
    unfold Heed.Room at hr ⊢
    simp only [letP, progCost, askCost] at hr
    omega
  have hcost : progCost (Graph.ops Heed.ops) (letP c n) t = 1 + 3 * n.toList.length := by
    have e : (perform (Graph.ops Heed.ops) t (.addCollection c)).1 = .unit (.ok ()) := by
      show Answer.unit (exec Heed.ops t (.addCollection c.text)).1.errTodo = _
      rw [h1]; rfl
    simp only [letP, progCost, askCost, e]
    generalize perform (Graph.ops Heed.ops) (perform (Graph.ops Heed.ops) t (.addCollection c)).2 (.addEntries c n) = x
    obtain ⟨a, b⟩ := x
    simp only
    split <;> simp [progCost]
  rw [hcost] at hr
  have hlen := length_map_le Graph.entryToTrip n
  have hr' : Heed.Room t ((Op.addCollection c.text).cost + ((Op.addTriples c.text (n.map Graph.entryToTrip)).cost + k)) := by
    unfold Heed.Room at hr ⊢
    simp only [Op.cost]
    omega
  have a1 := heed_refines.inv _ (.addCollection c.text) hg
  have b1 := heed_refines.step _ (.addCollection c.text) hg hk
  have c1 := Heed.room_exec hg _ _ hr'
  rw [letStore_graph]
  rcases e1 : exec Heed.ops t (.addCollection c.text) with ⟨r, t1⟩
  rw [e1] at h1 a1 b1 c1
  simp only at h1 a1 b1 c1
  subst h1
  have hw : (Heed.worldOf t1 c.text).isSome := by
    rw [b1]
    simp only [applyEvent, apply]
    cases hw : Heed.worldOf t c.text with
    | none => simp [World.set_same]
    | some p => simp [hw]
  have h2 : (exec Heed.ops t1 (.addTriples c.text (n.map Graph.entryToTrip))).1 = .ok () := by
    show (exec (Heed.opsWith true) t1 _).1 = _
    rw [Heed.exec_eq, Heed.outcome_addTriples a1 true c.text _ (by unfold Heed.Room at c1 ⊢; simp only [Op.cost] at c1; omega), hw]
    rfl
  have c2 := Heed.room_exec a1 (.addTriples c.text (n.map Graph.entryToTrip)) k c1
  rcases e2 : exec Heed.ops t1 (.addTriples c.text (n.map Graph.entryToTrip)) with ⟨r, t2⟩
  rw [e2] at h2 c2
  simp only at h2 c2
  subst h2
  exact ⟨t2, by simp only [e2], c2⟩

theorem heed_grows : Grows (Graph.ops Heed.ops) (fun _ => True)
    (fun k s t => Heed.Good s ∧ Heed.Good t ∧ Heed.Room t k ∧ WorldLe (Heed.worldOf s) (Heed.worldOf t)) where
  weaken k j s t h := ⟨h.1, h.2.1, by have := h.2.2.1; unfold Heed.Room at *; omega, h.2.2.2⟩
  entries k s t c n h := grow_entries heed_refines (fun s t c ts hs _ hw h => by
    cases h.symm.trans (Heed.triples_missing hs hw)) h.1 h.2.1 h.2.2.2 c n
  filter k s t c p n _ _ h := by cases h
  store k s t c n n' v s' _ hR hn h := by
    obtain ⟨hs, ht, hr, hle⟩ := hR
    cases let_ok h
    obtain ⟨hk, hs', hw⟩ := heed_let_world hs h
    obtain ⟨t', h', hr'⟩ := heed_let_ok ht hk hr
    obtain ⟨-, ht', hw'⟩ := heed_let_world ht h'
    refine ⟨t', h', hs', ht', hr', ?_⟩
    rw [hw, hw']
    exact letWorld_le hle (trips_le hn)

theorem duck_grows (N : Element → Prop) : Grows (Graph.ops Duck.ops) N
    (fun _ s t => Duck.Inv s ∧ Duck.Inv t ∧ (∀ c, N c → (Duck.world t c.text).isSome → (Duck.world s c.text).isSome) ∧
      WorldLe (Duck.world s) (Duck.world t)) where
  weaken k j s t h := h
  entries k s t c n h := grow_entries duck_refines (fun s t c ts hs ht hw h => by
    obtain ⟨ts1, h1, h2⟩ := Duck.triples_spec hs c
    obtain ⟨ts2, h3, h4⟩ := Duck.triples_spec ht c
    refine ⟨ts2, h3, fun x hx => ?_⟩
    cases (show Res.ok ts1 = Res.ok ts from h1.symm.trans h)
    rw [h2, hw] at hx
    simp at hx) h.1 h.2.1 h.2.2.2 c n
  filter k s t c p n _ _ h := by cases h
  store k s t c n n' v s' hc hR hn h := by
    obtain ⟨hs, ht, hr, hle⟩ := hR
    cases let_ok h
    obtain ⟨hs', hw⟩ := grow_let_world duck_refines trivial (fun _ => trivial) hs h
    have hnew : Duck.world s c.text = none := by
      cases hx : Duck.world s c.text with
      | none => rfl
      | some p =>
        exfalso
        have := (Duck.exec_spec hs (.addCollection c.text)).2.2
        simp only [hx, Option.isSome_some, if_true] at this
        rw [letStore_graph] at h
        rcases e : exec Duck.ops s (.addCollection c.text) with ⟨r, s1⟩
        rw [e] at h this
        simp only at this
        subst this
        cases h
    have hnew' : Duck.world t c.text = none := by
      cases hx : Duck.world t c.text with
      | none => rfl
      | some p => have := hr c hc (by rw [hx]; rfl); rw [hnew] at this; cases this
    have h' : ∃ t', letStore (Graph.ops Duck.ops) c n' t = (.ok emptyNet, t') := by
      obtain ⟨a1, a2, a3⟩ := Duck.exec_spec ht (.addCollection c.text)
      simp only [hnew', Option.isSome_none, Bool.false_eq_true, if_false] at a3
      rw [letStore_graph]
      rcases e : exec Duck.ops t (.addCollection c.text) with ⟨r, t1⟩
      rw [e] at a1 a2 a3
      simp only at a1 a2 a3
      subst a3
      obtain ⟨b1, b2, b3⟩ := Duck.exec_spec a1 (.addTriples c.text (n'.map Graph.entryToTrip))
      simp only [a2, applyEvent, apply, hnew', World.set_same, Option.isSome_some, if_true] at b3
      simp only
      rcases e2 : exec Duck.ops t1 (.addTriples c.text (n'.map Graph.entryToTrip)) with ⟨r, t2⟩
      rw [e2] at b3
      simp only at b3
      subst b3
      exact ⟨t2, rfl⟩
    obtain ⟨t', h'⟩ := h'
    obtain ⟨ht', hw'⟩ := grow_let_world duck_refines trivial (fun _ => trivial) ht h'
    refine ⟨t', h', hs', ht', fun d hd hsome => ?_, ?_⟩
    · rw [hw'] at hsome
      rw [hw]
      by_cases e : d.text = c.text
      · rw [e]; simp [growLetWorld, World.set_same]
      · rw [growLetWorld, World.set_other _ _ e] at hsome ⊢
        exact hr d hd hsome
    · rw [hw, hw']
      exact letWorld_le hle (trips_le hn)

/-! ## The theorems -/

/-- C94, in-memory store, from any two states: if the second has the collections of the first with at least their entries, then calls that compare
nothing and succeed on the first succeed on the second, with at least the same entries in the result, and leave the second with at least the
entries of the first. -/
theorem C94_mem (calls : List Call) (hp : ∀ c ∈ calls, Positive (.element c.name :: c.args)) (s t s' : Mem) (v : Value) (hst : Fewer Mem.ops s t)
    (h : runCalls (Graph.ops Mem.ops) common calls s = (.ok v, s')) :
    ∃ v' t', runCalls (Graph.ops Mem.ops) common calls t = (.ok v', t') ∧ AtMost v v' ∧ Fewer Mem.ops s' t' := by
  obtain ⟨v', t', h1, h2, h3⟩ := grow_calls (k := 0) mem_grows calls hp (fun _ _ _ _ => trivial)
    ((fewer_iff mem_refines trivial trivial).mp hst) (.same _) h
  exact ⟨v', t', h1, h2, (fewer_iff mem_refines trivial trivial).mpr h3⟩

/-- C94, LMDB store: likewise, from any two reachable states, as long as identifiers do not run out on the second. -/
theorem C94_heed (l l' : List Op) (calls : List Call) (hp : ∀ c ∈ calls, Positive (.element c.name :: c.args)) (s' : Heed) (v : Value) :
    let s := (runOps Heed.ops Heed.new l).2
    let t := (runOps Heed.ops Heed.new l').2
    costOf l' + progCost (Graph.ops Heed.ops) (callsP calls) t ≤ 2 ^ 64 → Fewer Heed.ops s t →
    runCalls (Graph.ops Heed.ops) common calls s = (.ok v, s') →
    ∃ v' t', runCalls (Graph.ops Heed.ops) common calls t = (.ok v', t') ∧ AtMost v v' ∧ Fewer Heed.ops s' t' := by
  intro s t hr hst h
  have hroom : Heed.Room t (progCost (Graph.ops Heed.ops) (callsP calls) t + 0) := by
    refine Heed.room_runOps l' _ _ Heed.good_new ?_
    show Heed.used Heed.new + _ ≤ _
    rw [show Heed.used Heed.new = 0 from rfl]
    omega
  obtain ⟨v', t', h1, h2, h3, h4, -, h5⟩ := grow_calls heed_grows calls hp (fun _ _ _ _ => trivial)
    ⟨heed_good l, heed_good l', hroom, (fewer_iff heed_refines (heed_good l) (heed_good l')).mp hst⟩ (.same _) h
  exact ⟨v', t', h1, h2, (fewer_iff heed_refines h3 h4).mpr h5⟩

/-- C94, DuckDB store: likewise, if the calls do not write (`let`) a collection that only the second has (that would panic, C59). -/
theorem C94_duck (l l' : List Op) (calls : List Call) (hp : ∀ c ∈ calls, Positive (.element c.name :: c.args)) (s' : Duck) (v : Value) :
    let s := (runOps Duck.ops Duck.new l).2
    let t := (runOps Duck.ops Duck.new l').2
    (∀ c ∈ calls, ∀ n : Element, CallLets n c → Listed Duck.ops t n.text → Listed Duck.ops s n.text) → Fewer Duck.ops s t →
    runCalls (Graph.ops Duck.ops) common calls s = (.ok v, s') →
    ∃ v' t', runCalls (Graph.ops Duck.ops) common calls t = (.ok v', t') ∧ AtMost v v' ∧ Fewer Duck.ops s' t' := by
  intro s t hr hst h
  have hs := duck_inv l
  have ht := duck_inv l'
  obtain ⟨v', t', h1, h2, h3, h4, -, h5⟩ := grow_calls (k := 0) (duck_grows fun n => ∃ c ∈ calls, CallLets n c) calls hp (fun c hc n hn => ⟨c, hc, hn⟩)
    ⟨hs, ht, fun n ⟨c, hc, hn⟩ h => (duck_listed hs _).mp (hr c hc n hn ((duck_listed ht _).mpr h)), (fewer_iff duck_refines hs ht).mp hst⟩ (.same _) h
  exact ⟨v', t', h1, h2, (fewer_iff duck_refines h3 h4).mpr h5⟩

/-! ## Cases -/

/-- A smaller and a larger history, and calls that copy, filter and read. -/
def fewOps : List Op := [.addCollection (lit "T"), .addTriples (lit "T") (BSet.ofList [⟨lit "a", lit ":", lit "C"⟩])]
def manyOps : List Op := [.addCollection (lit "X"), .addCollection (lit "T"), .addTriples (lit "T") (BSet.ofList [⟨lit "a", lit ":", lit "C"⟩, ⟨lit "b", lit ":", lit "C"⟩])]
def copyCalls : List Call := [call "let" [.element (el "U"), .quote [.element (el "read"), .element (el "T")]], call "read" [.element (el "U")]]
def pickCalls : List Call := [call "let" [.element (el "U"), .quote [.element (el "filter"), .element (el "T"), .element (el "?"), .element (el ":"),
  .element (el "C")]], call "read" [.element (el "U")]]

theorem fewer_of {σ : Type} {T : TripsOps σ} {s t : σ}
    {l : List Str} (hl : T.collections s = .ok l) (h : ∀ c ∈ l, Listed T t c ∧ ∃ n n', T.triples s c = .ok n ∧ T.triples t c = .ok n' ∧ ∀ x ∈ n, x ∈ n') :
    Fewer T s t := by
  rintro c ⟨l', h1, h2⟩
  cases hl.symm.trans h1
  obtain ⟨h3, n, n', h4, h5, h6⟩ := h _ h2
  refine ⟨h3, n.map Graph.tripToEntry, n'.map Graph.tripToEntry, congrArg (Res.map _) h4, congrArg (Res.map _) h5, fun e he => ?_⟩
  rw [BSet.mem_map] at he ⊢
  obtain ⟨x, hx, rfl⟩ := he
  exact ⟨x, h6 x hx, rfl⟩

theorem few_many {σ : Type} {T : TripsOps σ} {s t : σ}
    (h1 : T.collections s = .ok [lit "T"]) (h2 : T.collections t = .ok [lit "T", lit "X"] ∨ T.collections t = .ok [lit "X", lit "T"])
    (h3 : T.triples s (lit "T") = .ok (BSet.ofList [⟨lit "a", lit ":", lit "C"⟩]))
    (h4 : T.triples t (lit "T") = .ok (BSet.ofList [⟨lit "a", lit ":", lit "C"⟩, ⟨lit "b", lit ":", lit "C"⟩])) : Fewer T s t := by
  refine fewer_of h1 fun c hc => ?_
  rw [List.mem_singleton] at hc
  subst hc
  refine ⟨h2.elim (fun h => ⟨_, h, by simp⟩) fun h => ⟨_, h, by simp⟩, _, _, h3, h4, fun x hx => ?_⟩
  rw [BSet.mem_ofList] at hx ⊢
  simp only [List.mem_cons, List.not_mem_nil, or_false] at hx ⊢
  exact .inl hx

theorem copyCalls_positive : ∀ c ∈ copyCalls, Positive (.element c.name :: c.args) := by
  intro c hc
  simp only [copyCalls, List.mem_cons, List.not_mem_nil, or_false] at hc
  rcases hc with rfl | rfl
  · refine .call (by decide) (by decide) (fun h => absurd h (by decide)) fun _ c q h => ?_
    simp only [call, List.cons.injEq, Value.quote.injEq, and_true] at h
    obtain ⟨-, rfl⟩ := h
    exact .call (by decide) (by decide) (fun h => absurd h (by decide)) (fun h => absurd h (by decide))
  · exact .call (by decide) (by decide) (fun h => absurd h (by decide)) (fun h => absurd h (by decide))

theorem pickCalls_positive : ∀ c ∈ pickCalls, Positive (.element c.name :: c.args) := by
  intro c hc
  simp only [pickCalls, List.mem_cons, List.not_mem_nil, or_false] at hc
  rcases hc with rfl | rfl
  · refine .call (by decide) (by decide) (fun h => absurd h (by decide)) fun _ c q h => ?_
    simp only [call, List.cons.injEq, Value.quote.injEq, and_true] at h
    obtain ⟨-, rfl⟩ := h
    refine .call (by decide) (by decide) (fun _ e he => ?_) (fun h => absurd h (by decide))
    simp only [List.mem_cons, Value.element.injEq, List.not_mem_nil, or_false] at he
    rcases he with rfl | rfl | rfl | rfl <;> rintro ⟨c, cs, h⟩ <;> revert h <;> simp [lit]
  · exact .call (by decide) (by decide) (fun h => absurd h (by decide)) (fun h => absurd h (by decide))

/-- The hypotheses of `C94_mem` are met: the script picks one entry from the smaller store and two from the larger. -/
example : Fewer Mem.ops (runOps Mem.ops Mem.new fewOps).2 (runOps Mem.ops Mem.new manyOps).2 ∧
    (runCalls (Graph.ops Mem.ops) common pickCalls (runOps Mem.ops Mem.new fewOps).2).1 = .ok (.network (BSet.ofList [.ext (el "a") (el "C")])) ∧
    (runCalls (Graph.ops Mem.ops) common pickCalls (runOps Mem.ops Mem.new manyOps).2).1 =
      .ok (.network (BSet.ofList [.ext (el "a") (el "C"), .ext (el "b") (el "C")])) :=
  ⟨few_many (by decide +kernel) (.inl (by decide +kernel)) (by decide +kernel) (by decide +kernel), by decide +kernel, by decide +kernel⟩

/-- Those of `C94_heed`. -/
example : Fewer Heed.ops (runOps Heed.ops Heed.new fewOps).2 (runOps Heed.ops Heed.new manyOps).2 ∧
    costOf manyOps + progCost (Graph.ops Heed.ops) (callsP copyCalls) (runOps Heed.ops Heed.new manyOps).2 ≤ 2 ^ 64 ∧
    (runCalls (Graph.ops Heed.ops) common copyCalls (runOps Heed.ops Heed.new fewOps).2).1 = .ok (.network (BSet.ofList [.ext (el "a") (el "C")])) :=
  ⟨few_many (by decide +kernel) (.inl (by decide +kernel)) (by decide +kernel) (by decide +kernel), by decide +kernel,
    by decide +kernel⟩

/-- Those of `C94_duck`. -/
example : Fewer Duck.ops (runOps Duck.ops Duck.new fewOps).2 (runOps Duck.ops Duck.new manyOps).2 ∧
    (∀ c ∈ copyCalls, ∀ n : Element, CallLets n c → Listed Duck.ops (runOps Duck.ops Duck.new manyOps).2 n.text →
      Listed Duck.ops (runOps Duck.ops Duck.new fewOps).2 n.text) ∧
    (runCalls (Graph.ops Duck.ops) common copyCalls (runOps Duck.ops Duck.new fewOps).2).1 = .ok (.network (BSet.ofList [.ext (el "a") (el "C")])) := by
  refine ⟨few_many (by decide +kernel) (by decide +kernel) (by decide +kernel) (by decide +kernel), ?_, by decide +kernel⟩
  intro c hc n hn hl
  simp only [copyCalls, List.mem_cons, List.not_mem_nil, or_false] at hc
  exfalso
  rcases hc with rfl | rfl
  · rcases hn with ⟨-, rest, h⟩ | h
    · simp only [call, List.cons.injEq, Value.element.injEq] at h
      obtain ⟨rfl, -⟩ := h
      obtain ⟨l, h1, h2⟩ := hl
      cases h1
      exact absurd h2 (by decide +kernel)
    · simp only [call, LetsInList, LetsIn, or_false, false_or] at h
      obtain ⟨e, rest, h, h'⟩ := h
      simp only [List.cons.injEq, Value.element.injEq] at h
      obtain ⟨rfl, -⟩ := h
      exact absurd h' (by decide)
  · rcases hn with ⟨h, -⟩ | h
    · exact absurd h (by decide)
    · simp only [call, LetsInList, LetsIn, or_false] at h

theorem grow_err_of {α : Type} {r : Res α} (h : (match r with | .err _ => true | _ => false) = true) : ∃ m, r = .err m := by
  cases r <;> simp at h ⊢

/-- C94: with a comparison, more in the store can turn a result into an error, or a failure into a success, and a `filter` with a named variable can
begin to panic. -/
theorem C94_needed : ∃ s t : Mem, Fewer Mem.ops s t ∧
    (∃ cs v, (runCalls (Graph.ops Mem.ops) common cs s).1 = .ok v ∧ cs = [call "assert-equal" [.quote [.element (el "read"), .element (el "T")], .network ∅]] ∧
      ∃ m, (runCalls (Graph.ops Mem.ops) common cs t).1 = .err m) ∧
    (∃ cs v, (runCalls (Graph.ops Mem.ops) common cs s).1 = .ok v ∧ cs = [call "assert-fail" [.quote [.element (el "read"), .element (el "X")]]] ∧
      ∃ m, (runCalls (Graph.ops Mem.ops) common cs t).1 = .err m) ∧
    (∃ cs v, (runCalls (Graph.ops Mem.ops) common cs s).1 = .ok v ∧
      cs = [call "filter" [.element (el "T"), .element (el "?x"), .element (el "?"), .element (el "?")]] ∧
      (runCalls (Graph.ops Mem.ops) common cs t).1 = .panic) := by
  refine ⟨(runOps Mem.ops Mem.new [.addCollection (lit "T")]).2, (runOps Mem.ops Mem.new manyOps).2, ?_, ⟨_, .network ∅, ?_, rfl, grow_err_of ?_⟩,
    ⟨_, .network ∅, ?_, rfl, grow_err_of ?_⟩, ⟨_, .network ∅, ?_, rfl, ?_⟩⟩
  · refine fewer_of (l := [lit "T"]) (by decide +kernel) fun c hc => ?_
    rw [List.mem_singleton] at hc
    subst hc
    exact ⟨⟨_, rfl, by decide +kernel⟩, ∅, BSet.ofList [⟨lit "a", lit ":", lit "C"⟩, ⟨lit "b", lit ":", lit "C"⟩], by decide +kernel, by decide +kernel,
      fun x hx => absurd hx (BSet.not_mem_empty x)⟩
  · decide +kernel
  · decide +kernel
  · decide +kernel
  · decide +kernel
  · decide +kernel
  · decide +kernel

end Props
end Verif
