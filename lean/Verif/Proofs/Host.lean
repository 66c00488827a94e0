import Verif.Spec.Host
import Verif.Proofs.EvalMore
/-!
# Host commands that call back: simulation between two runs
-/
namespace Verif
namespace EvalHost
open Eval Spec

variable {σ : Type u} {τ : Type v} {R : σ → τ → Prop} {L : LigOps σ} {L' : LigOps τ}

/-- If the first ends, so does the second, with the same outcome and a related state. -/
def Sim (R : σ → τ → Prop) (x : Option (Res Value × σ)) (y : Option (Res Value × τ)) : Prop :=
  ∀ r s, x = some (r, s) → ∃ t, y = some (r, t) ∧ R s t

theorem returned_inj {a b : Res α} (h : returned a = returned b) : a = b := by
  cases a <;> cases b <;> simp_all [returned]

theorem map_inj {f : α → β} (hf : ∀ a b, f a = f b → a = b) {x y : Option α} (h : x.map f = y.map f) : x = y := by
  cases x <;> cases y <;> simp_all
  exact hf _ _ h

theorem ligRel (h : SameMethods R L L') : LigRel R L L' where
  collections s t hr := returned_inj (map_inj (by intro a b e; cases e; rfl) (h .collections s t hr).1)
  entries s t c hr := returned_inj (map_inj (by intro a b e; cases e; rfl) (h (.entries c) s t hr).1)
  filter s t c p hr := returned_inj (map_inj (by intro a b e; cases e; rfl) (h (.filter c p) s t hr).1)
  addCollection s t c hr := ⟨returned_inj (map_inj (by intro a b e; cases e; rfl) (h (.addCollection c) s t hr).1), (h (.addCollection c) s t hr).2⟩
  removeCollection s t c hr := ⟨returned_inj (map_inj (by intro a b e; cases e; rfl) (h (.removeCollection c) s t hr).1), (h (.removeCollection c) s t hr).2⟩
  addEntries s t c es hr := by
    refine ⟨?_, (h (.addEntries c es) s t hr).2⟩
    have e := (h (.addEntries c es) s t hr).1
    simp only [perform] at e
    cases h1 : (L.addEntries s c es).1 <;> cases h2 : (L'.addEntries t c es).1 <;> rw [h1, h2] at e <;> simp_all [returned]
  removeEntries s t c es hr := by
    refine ⟨?_, (h (.removeEntries c es) s t hr).2⟩
    have e := (h (.removeEntries c es) s t hr).1
    simp only [perform] at e
    cases h1 : (L.removeEntries s c es).1 <;> cases h2 : (L'.removeEntries t c es).1 <;> rw [h1, h2] at e <;> simp_all [returned]

variable (t : Table)

theorem sim_some {r : Res Value} {s : σ} {u : τ} (h : R s u) : Sim R (some (r, s)) (some (r, u)) := by
  intro r' s' e; cases e; exact ⟨u, rfl, h⟩

theorem sim_out {a : Res Value × σ} {b : Res Value × τ} (h : OutRel R a b) : Sim R (some a) (some b) := by
  obtain ⟨r, s⟩ := a; obtain ⟨r', u⟩ := b
  obtain ⟨e, h⟩ := h
  simp only at e h; subst e
  exact sim_some h

theorem sim_none {y : Option (Res Value × τ)} : Sim R none y := by intro r s e; cases e

/-- Cases of a simulation. -/
theorem Sim.cases {x : Option (Res Value × σ)} {y : Option (Res Value × τ)} (h : Sim R x y) :
    x = none ∨ ∃ r s u, x = some (r, s) ∧ y = some (r, u) ∧ R s u := by
  cases x with
  | none => exact .inl rfl
  | some p =>
    obtain ⟨r, s⟩ := p
    obtain ⟨u, h1, h2⟩ := h r s rfl
    exact .inr ⟨r, s, u, rfl, h1, h2⟩

section
variable {inv : Fun → List Value → σ → Option (Res Value × σ)} {inv' : Fun → List Value → τ → Option (Res Value × τ)}

theorem runCallsWith_sim (hi : ∀ f args s u, R s u → Sim R (inv f args s) (inv' f args u)) (calls : List Call) : ∀ v s u, R s u →
    Sim R (runCallsWith t inv calls v s) (runCallsWith t inv' calls v u) := by
  induction calls with
  | nil => intro v s u h; exact sim_some h
  | cons c cs ih =>
    intro v s u h
    simp only [runCallsWith]
    cases t.get? c.name.text with
    | none => exact sim_some h
    | some cmd =>
      rcases (hi cmd.fn c.args s u h).cases with e | ⟨r, s1, u1, e1, e2, h1⟩
      · simp only [e]; exact sim_none
      · simp only [e1, e2]
        cases r with
        | ok v => exact ih v s1 u1 h1
        | err m => exact sim_some h1
        | panic => exact sim_some h1

theorem runQuoteWith_sim (hi : ∀ f args s u, R s u → Sim R (inv f args s) (inv' f args u)) (q : List Value) (s : σ) (u : τ) (h : R s u) :
    Sim R (runQuoteWith t inv q s) (runQuoteWith t inv' q u) := by
  match q with
  | [] => exact sim_some h
  | .element name :: args => exact runCallsWith_sim t hi _ _ _ _ h
  | .quote _ :: _ => exact sim_some h
  | .network _ :: _ => exact sim_some h

theorem evalArgWith_sim (hi : ∀ f args s u, R s u → Sim R (inv f args s) (inv' f args u)) (v : Value) (s : σ) (u : τ) (h : R s u) :
    Sim R (evalArgWith t inv v s) (evalArgWith t inv' v u) := by
  match v with
  | .quote q => exact runQuoteWith_sim t hi q s u h
  | .element _ => exact sim_some h
  | .network _ => exact sim_some h

theorem hostRun_sim (hL : SameMethods R L L') (hi : ∀ f args s u, R s u → Sim R (inv f args s) (inv' f args u)) (p : Host) : ∀ s u, R s u →
    Sim R (hostRun L t inv p s) (hostRun L' t inv' p u) := by
  induction p with
  | ret r => intro s u h; exact sim_some h
  | store q k ih =>
    intro s u h
    obtain ⟨e, h'⟩ := hL q s u h
    simp only [hostRun]
    rcases h1 : perform L s q with ⟨a, s1⟩
    rcases h2 : perform L' u q with ⟨b, u1⟩
    rw [h1, h2] at e h'
    simp only at e h'
    subst e
    cases a with
    | none => exact sim_some h'
    | some a => exact ih a s1 u1 h'
  | commands k ih => intro s u h; exact ih _ s u h
  | run calls k ih =>
    intro s u h
    simp only [hostRun]
    rcases (runCallsWith_sim t hi calls emptyNet s u h).cases with e | ⟨r, s1, u1, e1, e2, h1⟩
    · simp only [e]; exact sim_none
    · simp only [e1, e2]
      cases r with
      | ok v => exact ih _ s1 u1 h1
      | err m => exact ih _ s1 u1 h1
      | panic => exact sim_some h1
end

theorem invoke_sim (hL : SameMethods R L L') : ∀ (n m : Nat), n ≤ m → ∀ f args s u, R s u → Sim R (invoke L t n f args s) (invoke L' t m f args u) := by
  intro n
  induction n with
  | zero => intro m _ f args s u _; exact sim_none
  | succ n ih =>
    intro m hm f args s u h
    obtain ⟨m, rfl⟩ : ∃ k, m = k + 1 := ⟨m - 1, by omega⟩
    have hi := ih m (by omega)
    have hq := fun q s u (h : R s u) => runQuoteWith_sim t hi q s u h
    have he := fun v s u (h : R s u) => evalArgWith_sim t hi v s u h
    have hLr := ligRel hL
    match f with
    | .host body => exact hostRun_sim t hL hi (body args) s u h
    | .builtin .docs => exact sim_some h
    | .builtin .union => exact sim_some h
    | .builtin .id => exact sim_some h
    | .builtin .ignore => exact sim_some h
    | .builtin .read => simp only [invoke]; rw [read_rel hLr args s u h]; exact sim_some h
    | .builtin .filter => simp only [invoke]; rw [filterCmd_rel hLr args s u h]; exact sim_some h
    | .builtin .assertEqual =>
      match args with
      | [left, right] =>
        simp only [invoke]
        rcases (he left s u h).cases with e | ⟨r, s1, u1, e1, e2, h1⟩
        · simp only [e]; exact sim_none
        · simp only [e1, e2]
          cases r with
          | err m => exact sim_some h1
          | panic => exact sim_some h1
          | ok l =>
            rcases (he right s1 u1 h1).cases with e | ⟨r, s2, u2, e3, e4, h2⟩
            · simp only [e]; exact sim_none
            · simp only [e3, e4]
              cases r <;> exact sim_some h2
      | [] => exact sim_some h
      | [_] => exact sim_some h
      | _ :: _ :: _ :: _ => exact sim_some h
    | .builtin .assertFail =>
      match args with
      | [.quote q] =>
        simp only [invoke]
        rcases (hq q s u h).cases with e | ⟨r, s1, u1, e1, e2, h1⟩
        · simp only [e]; exact sim_none
        · simp only [e1, e2]
          cases r <;> exact sim_some h1
      | [.element _] => exact sim_some h
      | [.network _] => exact sim_some h
      | [] => exact sim_some h
      | _ :: _ :: _ => simp only [invoke]; exact sim_some h
    | .builtin .let_ =>
      match args with
      | [.element name, .network net] => exact sim_out (letStore_rel hLr name net s u h)
      | [.element name, .quote q] =>
        simp only [invoke]
        rcases (hq q s u h).cases with e | ⟨r, s1, u1, e1, e2, h1⟩
        · simp only [e]; exact sim_none
        · simp only [e1, e2]
          cases r with
          | err m => exact sim_some h1
          | panic => exact sim_some h1
          | ok v =>
            cases v with
            | network net => exact sim_out (letStore_rel hLr name net s1 u1 h1)
            | element _ => exact sim_some h1
            | quote _ => exact sim_some h1
      | [.element _, .element _] => exact sim_some h
      | .quote _ :: _ => exact sim_some h
      | .network _ :: _ => exact sim_some h
      | [] => exact sim_some h
      | [.element _] => exact sim_some h
      | .element _ :: _ :: _ :: _ => simp only [invoke]; exact sim_some h

theorem runCalls_sim (hL : SameMethods R L L') {n m : Nat} (hnm : n ≤ m) (calls : List Call) (s : σ) (u : τ) (h : R s u) :
    Sim R (runCalls L t n calls s) (runCalls L' t m calls u) :=
  runCallsWith_sim t (invoke_sim t hL n m hnm) calls emptyNet s u h

theorem same_eq (L : LigOps σ) : SameMethods (fun s s' => s = s') L L := by rintro q s _ rfl; exact ⟨rfl, rfl⟩

theorem runCalls_mono {L : LigOps σ} {n m : Nat} (hnm : n ≤ m) {calls : List Call} {s : σ} {out : Res Value × σ}
    (h : runCalls L t n calls s = some out) : runCalls L t m calls s = some out := by
  obtain ⟨r, s'⟩ := out
  obtain ⟨_, h1, rfl⟩ := runCalls_sim t (same_eq L) hnm calls s s rfl r s' h
  exact h1

theorem invoke_mono {L : LigOps σ} {n m : Nat} (hnm : n ≤ m) {f : Fun} {args : List Value} {s : σ} {out : Res Value × σ}
    (h : invoke L t n f args s = some out) : invoke L t m f args s = some out := by
  obtain ⟨r, s'⟩ := out
  obtain ⟨_, h1, rfl⟩ := invoke_sim t (same_eq L) n m hnm f args s s rfl r s' h
  exact h1

/-! ## Ending -/

section
variable {L : LigOps σ} (w : Call → Nat)
  (hq : ∀ c cmd b, t.get? c.name.text = some cmd → cmd.fn = .builtin b → ∀ e args, .quote (.element e :: args) ∈ c.args → w ⟨e, args⟩ < w c)
  (hh : ∀ c cmd body, t.get? c.name.text = some cmd → cmd.fn = .host body → OnlyRuns (fun d => w d < w c) (body c.args))

theorem runCallsWith_ends {inv : Fun → List Value → σ → Option (Res Value × σ)} (calls : List Call)
    (hi : ∀ c ∈ calls, ∀ cmd s, t.get? c.name.text = some cmd → (inv cmd.fn c.args s).isSome) : ∀ v s, (runCallsWith t inv calls v s).isSome := by
  induction calls with
  | nil => intro v s; rfl
  | cons c cs ih =>
    intro v s
    simp only [runCallsWith]
    cases hg : t.get? c.name.text with
    | none => rfl
    | some cmd =>
      have h := hi c List.mem_cons_self cmd s hg
      simp only
      cases h1 : inv cmd.fn c.args s with
      | none => rw [h1] at h; cases h
      | some p =>
        obtain ⟨r, s1⟩ := p
        cases r with
        | ok v => exact ih (fun d hd => hi d (List.mem_cons_of_mem _ hd)) v s1
        | err m => rfl
        | panic => rfl

theorem hostRun_ends {inv : Fun → List Value → σ → Option (Res Value × σ)} {P : Call → Prop}
    (hi : ∀ c, P c → ∀ cmd s, t.get? c.name.text = some cmd → (inv cmd.fn c.args s).isSome) (p : Host) : OnlyRuns P p → ∀ s,
    (hostRun L t inv p s).isSome := by
  induction p with
  | ret r => intro _ s; rfl
  | store q k ih =>
    intro hp s
    simp only [hostRun]
    rcases perform L s q with ⟨_ | a, s1⟩
    · rfl
    · exact ih a (hp a) s1
  | commands k ih => intro hp s; exact ih _ (hp _) s
  | run calls k ih =>
    intro hp s
    have h := runCallsWith_ends t calls (fun c hc => hi c (hp.1 c hc)) emptyNet s
    simp only [hostRun]
    cases h1 : runCallsWith t inv calls emptyNet s with
    | none => rw [h1] at h; cases h
    | some p =>
      obtain ⟨r, s1⟩ := p
      cases r with
      | ok v => exact ih _ (hp.2 _) s1
      | err m => exact ih _ (hp.2 _) s1
      | panic => rfl

include hq hh in
theorem invoke_ends : ∀ (n : Nat) (c : Call), w c < n → ∀ cmd s, t.get? c.name.text = some cmd → (invoke L t n cmd.fn c.args s).isSome := by
  intro n
  induction n with
  | zero => intro c h; omega
  | succ n ih =>
    intro c hc cmd s hg
    have quote : ∀ b, cmd.fn = .builtin b → ∀ q, .quote q ∈ c.args → ∀ s : σ, (runQuoteWith t (invoke L t n) q s).isSome := by
      intro b hb q hm s
      match q with
      | [] => rfl
      | .element e :: args =>
        have := hq c cmd b hg hb e args hm
        refine runCallsWith_ends t _ ?_ emptyNet s
        intro d hd
        rw [List.mem_singleton] at hd
        subst hd
        exact ih _ (by omega)
      | .quote _ :: _ => rfl
      | .network _ :: _ => rfl
    have arg : ∀ b, cmd.fn = .builtin b → ∀ v ∈ c.args, ∀ s : σ, (evalArgWith t (invoke L t n) v s).isSome := by
      intro b hb v hv s
      match v with
      | .quote q => exact quote b hb q hv s
      | .element _ => rfl
      | .network _ => rfl
    obtain ⟨name, args⟩ := c
    cases hf : cmd.fn with
    | host body => exact hostRun_ends t (P := fun d => w d < w ⟨name, args⟩) (fun d hd => ih d (by omega)) _ (hh _ cmd body hg hf) s
    | builtin b =>
      have quote := quote b hf
      have arg := arg b hf
      match b with
      | .docs => rfl
      | .union => rfl
      | .id => rfl
      | .ignore => rfl
      | .read => rfl
      | .filter => rfl
      | .assertEqual =>
        match args with
        | [left, right] =>
          have h1 := arg left (by simp) s
          simp only [invoke]
          cases e1 : evalArgWith t (invoke L t n) left s with
          | none => rw [e1] at h1; cases h1
          | some p =>
            obtain ⟨r, s1⟩ := p
            cases r with
            | err m => rfl
            | panic => rfl
            | ok l =>
              have h2 := arg right (by simp) s1
              simp only
              cases e2 : evalArgWith t (invoke L t n) right s1 with
              | none => rw [e2] at h2; cases h2
              | some p => obtain ⟨r, s2⟩ := p; cases r <;> rfl
        | [] => rfl
        | [_] => rfl
        | _ :: _ :: _ :: _ => rfl
      | .assertFail =>
        match args with
        | [.quote q] =>
          have h1 := quote q (by simp) s
          simp only [invoke]
          cases e1 : runQuoteWith t (invoke L t n) q s with
          | none => rw [e1] at h1; cases h1
          | some p => obtain ⟨r, s1⟩ := p; cases r <;> rfl
        | [.element _] => rfl
        | [.network _] => rfl
        | [] => rfl
        | _ :: _ :: _ => simp only [invoke]; rfl
      | .let_ =>
        match args with
        | [.element name, .network net] => rfl
        | [.element name, .quote q] =>
          have h1 := quote q (by simp) s
          simp only [invoke]
          cases e1 : runQuoteWith t (invoke L t n) q s with
          | none => rw [e1] at h1; cases h1
          | some p =>
            obtain ⟨r, s1⟩ := p
            cases r with
            | err m => rfl
            | panic => rfl
            | ok v => cases v <;> rfl
        | [.element _, .element _] => rfl
        | .quote _ :: _ => rfl
        | .network _ :: _ => rfl
        | [] => rfl
        | [.element _] => rfl
        | .element _ :: _ :: _ :: _ => simp only [invoke]; rfl
end

/-! ## Without callbacks -/

section
variable (L : LigOps σ)

/-- A command function as in `asEval`. -/
def conv (f : Fun) : CmdFun σ := match f with
  | .builtin b => .builtin b
  | .host body => .host fun args s => plainRun L (t.map fun p => (p.1, p.2.doc)) (body args) s

theorem lookup_map {α β γ} [BEq α] (f : β → γ) (a : α) : ∀ l : List (α × β), (l.map fun p => (p.1, f p.2)).lookup a = (l.lookup a).map f
  | [] => rfl
  | (b, c) :: l => by
    simp only [List.map_cons, List.lookup_cons]
    cases a == b with
    | true => rfl
    | false => exact lookup_map f a l

theorem asEval_get (n : Str) : (asEval L t).get? n = (t.get? n).map fun c => ⟨c.doc, conv t L c.fn⟩ := by
  rw [Table.get?, ← lookup_map (fun c : Cmd => (⟨c.doc, conv t L c.fn⟩ : Command σ)) n t]
  rfl

theorem docs_asEval (args : List Value) : Eval.docs (asEval L t) args = docs t args := by
  match args with
  | [] => simp only [Eval.docs, docs, asEval, List.foldl_map]
  | _ :: _ => rfl

theorem hostRun_plain (inv : Fun → List Value → σ → Option (Res Value × σ)) (p : Host) : NoCallback p → ∀ s,
    hostRun L t inv p s = some (plainRun L (t.map fun p => (p.1, p.2.doc)) p s) := by
  induction p with
  | ret r => intro _ s; rfl
  | store q k ih =>
    intro hp s
    simp only [hostRun, plainRun]
    rcases perform L s q with ⟨_ | a, s1⟩
    · rfl
    · exact ih a (hp a) s1
  | commands k ih => intro hp s; exact ih _ (hp _) s
  | run calls k ih => intro hp; exact hp.elim

variable (ht : ∀ n cmd body, t.get? n = some cmd → cmd.fn = .host body → ∀ args, NoCallback (body args))

include ht in
theorem runCallsWith_conv {inv : Fun → List Value → σ → Option (Res Value × σ)} {inv' : CmdFun σ → List Value → σ → Option (Res Value × σ)}
    (hi : ∀ f, (∀ body, f = .host body → ∀ args, NoCallback (body args)) → ∀ args s, inv f args s = inv' (conv t L f) args s) (calls : List Call) : ∀ v s,
    runCallsWith t inv calls v s = EvalRec.runCallsWith (asEval L t) inv' calls v s := by
  induction calls with
  | nil => intro v s; rfl
  | cons c cs ih =>
    intro v s
    simp only [runCallsWith, EvalRec.runCallsWith, asEval_get]
    cases hg : t.get? c.name.text with
    | none => rfl
    | some cmd =>
      simp only [Option.map_some, ← hi cmd.fn (fun body h => ht _ _ body hg h)]
      cases inv cmd.fn c.args s with
      | none => rfl
      | some p => obtain ⟨r, s1⟩ := p; cases r with
        | ok v => exact ih v s1
        | err m => rfl
        | panic => rfl

include ht in
theorem invoke_conv : ∀ n f, (∀ body, f = .host body → ∀ args, NoCallback (body args)) → ∀ args s,
    invoke L t n f args s = EvalRec.invoke L (asEval L t) n (conv t L f) args s := by
  intro n
  induction n with
  | zero => intro f hf args s; rfl
  | succ n ih =>
    intro f hf args s
    have hq : ∀ q s, runQuoteWith t (invoke L t n) q s = EvalRec.runQuoteWith (asEval L t) (EvalRec.invoke L (asEval L t) n) q s := by
      intro q s
      match q with
      | [] => rfl
      | .element name :: args => exact runCallsWith_conv t L ht ih _ _ _
      | .quote _ :: _ => rfl
      | .network _ :: _ => rfl
    have he : ∀ v s, evalArgWith t (invoke L t n) v s = EvalRec.evalArgWith (asEval L t) (EvalRec.invoke L (asEval L t) n) v s := by
      intro v s
      match v with
      | .quote q => exact hq q s
      | .element _ => rfl
      | .network _ => rfl
    match f with
    | .host body => simp only [invoke, EvalRec.invoke, conv]; exact hostRun_plain t L _ _ (hf body rfl args) s
    | .builtin .docs => simp only [invoke, EvalRec.invoke, conv, docs_asEval]
    | .builtin .union => rfl
    | .builtin .id => rfl
    | .builtin .ignore => rfl
    | .builtin .read => rfl
    | .builtin .filter => rfl
    | .builtin .assertEqual => simp only [invoke, EvalRec.invoke, conv, he]; rfl
    | .builtin .assertFail => simp only [invoke, EvalRec.invoke, conv, hq]; rfl
    | .builtin .let_ => simp only [invoke, EvalRec.invoke, conv, hq]; rfl
end

end EvalHost
end Verif
