import Verif.Proofs.Host
import Verif.Proofs.EvalSim
/-!
# Host commands that call back: one store following another
-/
namespace Verif
namespace EvalHost
open Eval Spec

variable {σ : Type u} {τ : Type v} {R : σ → τ → Prop} {L : LigOps σ} {L' : LigOps τ}

/-- If the first ends without panic, so does the second, with the same outcome and a related state. -/
def Fol (R : σ → τ → Prop) (x : Option (Res Value × σ)) (y : Option (Res Value × τ)) : Prop :=
  ∀ r s, x = some (r, s) → r ≠ .panic → ∃ t, y = some (r, t) ∧ R s t

theorem returned_some {a b : Res α} (h : ∀ x, returned a = some x → returned b = some x) (ha : a ≠ .panic) : b = a := by
  cases a with
  | panic => exact absurd rfl ha
  | ok x => have := h _ rfl; cases b <;> simp_all [returned]
  | err x => have := h _ rfl; cases b <;> simp_all [returned]

theorem ligSim (h : FollowsMethods R L L') : LigSim R L L' where
  entries s t c hr hp := by
    refine returned_some (fun x hx => ?_) hp
    have := (h (.entries c) s t hr (.network x) (by simp [perform, hx])).1
    simpa [perform] using this
  filter s t c p hr hp := by
    refine returned_some (fun x hx => ?_) hp
    have := (h (.filter c p) s t hr (.network x) (by simp [perform, hx])).1
    simpa [perform] using this
  addCollection s t c hr hp := by
    have key : ∀ x, returned (L.addCollection s c).1 = some x → returned (L'.addCollection t c).1 = some x ∧
        R (L.addCollection s c).2 (L'.addCollection t c).2 := by
      intro x hx
      have := h (.addCollection c) s t hr (.unit x) (by simp [perform, hx])
      simpa [perform] using this
    refine ⟨returned_some (fun x hx => (key x hx).1) hp, ?_⟩
    cases e : (L.addCollection s c).1 with
    | panic => exact absurd e hp
    | ok x => exact (key (.ok x) (by rw [e]; rfl)).2
    | err x => exact (key (.error x) (by rw [e]; rfl)).2
  addEntries s t c es hr hp := by
    have key : ∀ x, returned (L.addEntries s c es).1 = some x → returned (L'.addEntries t c es).1 = some x ∧
        R (L.addEntries s c es).2.1 (L'.addEntries t c es).2.1 := by
      intro x hx
      have := h (.addEntries c es) s t hr (.changed x (L.addEntries s c es).2.2) (by simp [perform, hx])
      simp only [perform, Option.map_eq_some_iff, Ans.changed.injEq] at this
      obtain ⟨⟨y, h1, rfl, _⟩, h2⟩ := this
      exact ⟨h1, h2⟩
    refine ⟨returned_some (fun x hx => (key x hx).1) hp, ?_⟩
    cases e : (L.addEntries s c es).1 with
    | panic => exact absurd e hp
    | ok x => exact (key (.ok x) (by rw [e]; rfl)).2
    | err x => exact (key (.error x) (by rw [e]; rfl)).2

variable (t : Table)

theorem fol_some {r : Res Value} {s : σ} {u : τ} (h : R s u) : Fol R (some (r, s)) (some (r, u)) := by
  intro r' s' e _; cases e; exact ⟨u, rfl, h⟩

theorem fol_panic {s : σ} {y : Option (Res Value × τ)} : Fol R (some (.panic, s)) y := by intro r s e hp; cases e; exact absurd rfl hp

theorem fol_out {a : Res Value × σ} {b : Res Value × τ} (h : Follows R a b) : Fol R (some a) (some b) := by
  obtain ⟨r, s⟩ := a; obtain ⟨r', u⟩ := b
  intro r1 s1 e hp
  cases e
  obtain ⟨e, h1⟩ := h hp
  simp only at e h1; subst e
  exact ⟨u, rfl, h1⟩

theorem fol_none {y : Option (Res Value × τ)} : Fol R none y := by intro r s e; cases e

/-- Cases of a simulation. -/
theorem Fol.cases {x : Option (Res Value × σ)} {y : Option (Res Value × τ)} (h : Fol R x y) :
    x = none ∨ (∃ s, x = some (.panic, s)) ∨ ∃ r s u, x = some (r, s) ∧ y = some (r, u) ∧ R s u := by
  cases x with
  | none => exact .inl rfl
  | some p =>
    obtain ⟨r, s⟩ := p
    by_cases hp : r = .panic
    · subst hp; exact .inr (.inl ⟨s, rfl⟩)
    · obtain ⟨u, h1, h2⟩ := h r s rfl hp
      exact .inr (.inr ⟨r, s, u, rfl, h1, h2⟩)

section
variable {inv : Fun → List Value → σ → Option (Res Value × σ)} {inv' : Fun → List Value → τ → Option (Res Value × τ)}

theorem runCallsWith_fol (hi : ∀ f args s u, R s u → Fol R (inv f args s) (inv' f args u)) (calls : List Call) : ∀ v s u, R s u →
    Fol R (runCallsWith t inv calls v s) (runCallsWith t inv' calls v u) := by
  induction calls with
  | nil => intro v s u h; exact fol_some h
  | cons c cs ih =>
    intro v s u h
    simp only [runCallsWith]
    cases t.get? c.name.text with
    | none => exact fol_some h
    | some cmd =>
      rcases (hi cmd.fn c.args s u h).cases with e | ⟨sp, e⟩ | ⟨r, s1, u1, e1, e2, h1⟩
      · simp only [e]; exact fol_none
      · simp only [e]; exact fol_panic
      · simp only [e1, e2]
        cases r with
        | ok v => exact ih v s1 u1 h1
        | err m => exact fol_some h1
        | panic => exact fol_some h1

theorem runQuoteWith_fol (hi : ∀ f args s u, R s u → Fol R (inv f args s) (inv' f args u)) (q : List Value) (s : σ) (u : τ) (h : R s u) :
    Fol R (runQuoteWith t inv q s) (runQuoteWith t inv' q u) := by
  match q with
  | [] => exact fol_some h
  | .element name :: args => exact runCallsWith_fol t hi _ _ _ _ h
  | .quote _ :: _ => exact fol_some h
  | .network _ :: _ => exact fol_some h

theorem evalArgWith_fol (hi : ∀ f args s u, R s u → Fol R (inv f args s) (inv' f args u)) (v : Value) (s : σ) (u : τ) (h : R s u) :
    Fol R (evalArgWith t inv v s) (evalArgWith t inv' v u) := by
  match v with
  | .quote q => exact runQuoteWith_fol t hi q s u h
  | .element _ => exact fol_some h
  | .network _ => exact fol_some h

theorem hostRun_fol (hL : FollowsMethods R L L') (hi : ∀ f args s u, R s u → Fol R (inv f args s) (inv' f args u)) (p : Host) : ∀ s u, R s u →
    Fol R (hostRun L t inv p s) (hostRun L' t inv' p u) := by
  induction p with
  | ret r => intro s u h; exact fol_some h
  | store q k ih =>
    intro s u h
    have h' := hL q s u h
    simp only [hostRun]
    rcases h1 : perform L s q with ⟨_ | a, s1⟩
    · exact fol_panic
    · rw [h1] at h'
      obtain ⟨e, h'⟩ := h' a rfl
      rcases h2 : perform L' u q with ⟨b, u1⟩
      rw [h2] at e h'
      simp only at e h'
      subst e
      exact ih a s1 u1 h'
  | commands k ih => intro s u h; exact ih _ s u h
  | run calls k ih =>
    intro s u h
    simp only [hostRun]
    rcases (runCallsWith_fol t hi calls emptyNet s u h).cases with e | ⟨sp, e⟩ | ⟨r, s1, u1, e1, e2, h1⟩
    · simp only [e]; exact fol_none
    · simp only [e]; exact fol_panic
    · simp only [e1, e2]
      cases r with
      | ok v => exact ih _ s1 u1 h1
      | err m => exact ih _ s1 u1 h1
      | panic => exact fol_some h1
end

theorem invoke_fol (hL : FollowsMethods R L L') : ∀ (n m : Nat), n ≤ m → ∀ f args s u, R s u → Fol R (invoke L t n f args s) (invoke L' t m f args u) := by
  intro n
  induction n with
  | zero => intro m _ f args s u _; exact fol_none
  | succ n ih =>
    intro m hm f args s u h
    obtain ⟨m, rfl⟩ : ∃ k, m = k + 1 := ⟨m - 1, by omega⟩
    have hi := ih m (by omega)
    have hq := fun q s u (h : R s u) => runQuoteWith_fol t hi q s u h
    have he := fun v s u (h : R s u) => evalArgWith_fol t hi v s u h
    have hLr := ligSim hL
    match f with
    | .host body => exact hostRun_fol t hL hi (body args) s u h
    | .builtin .docs => exact fol_some h
    | .builtin .union => exact fol_some h
    | .builtin .id => exact fol_some h
    | .builtin .ignore => exact fol_some h
    | .builtin .read => exact fol_out (a := (read L args s, s)) (b := (read L' args u, u)) fun hp => ⟨read_sim hLr args s u h hp, h⟩
    | .builtin .filter => exact fol_out (a := (filterCmd L args s, s)) (b := (filterCmd L' args u, u)) fun hp => ⟨filterCmd_sim hLr args s u h hp, h⟩
    | .builtin .assertEqual =>
      match args with
      | [left, right] =>
        simp only [invoke]
        rcases (he left s u h).cases with e | ⟨sp, e⟩ | ⟨r, s1, u1, e1, e2, h1⟩
        · simp only [e]; exact fol_none
        · simp only [e]; exact fol_panic
        · simp only [e1, e2]
          cases r with
          | err m => exact fol_some h1
          | panic => exact fol_some h1
          | ok l =>
            rcases (he right s1 u1 h1).cases with e | ⟨sp, e⟩ | ⟨r, s2, u2, e3, e4, h2⟩
            · simp only [e]; exact fol_none
            · simp only [e]; exact fol_panic
            · simp only [e3, e4]
              cases r <;> exact fol_some h2
      | [] => exact fol_some h
      | [_] => exact fol_some h
      | _ :: _ :: _ :: _ => exact fol_some h
    | .builtin .assertFail =>
      match args with
      | [.quote q] =>
        simp only [invoke]
        rcases (hq q s u h).cases with e | ⟨sp, e⟩ | ⟨r, s1, u1, e1, e2, h1⟩
        · simp only [e]; exact fol_none
        · simp only [e]; exact fol_panic
        · simp only [e1, e2]
          cases r <;> exact fol_some h1
      | [.element _] => exact fol_some h
      | [.network _] => exact fol_some h
      | [] => exact fol_some h
      | _ :: _ :: _ => simp only [invoke]; exact fol_some h
    | .builtin .let_ =>
      match args with
      | [.element name, .network net] => exact fol_out (letStore_sim hLr name net s u h)
      | [.element name, .quote q] =>
        simp only [invoke]
        rcases (hq q s u h).cases with e | ⟨sp, e⟩ | ⟨r, s1, u1, e1, e2, h1⟩
        · simp only [e]; exact fol_none
        · simp only [e]; exact fol_panic
        · simp only [e1, e2]
          cases r with
          | err m => exact fol_some h1
          | panic => exact fol_some h1
          | ok v =>
            cases v with
            | network net => exact fol_out (letStore_sim hLr name net s1 u1 h1)
            | element _ => exact fol_some h1
            | quote _ => exact fol_some h1
      | [.element _, .element _] => exact fol_some h
      | .quote _ :: _ => exact fol_some h
      | .network _ :: _ => exact fol_some h
      | [] => exact fol_some h
      | [.element _] => exact fol_some h
      | .element _ :: _ :: _ :: _ => simp only [invoke]; exact fol_some h

theorem runCalls_fol (hL : FollowsMethods R L L') {n m : Nat} (hnm : n ≤ m) (calls : List Call) (s : σ) (u : τ) (h : R s u) :
    Fol R (runCalls L t n calls s) (runCalls L' t m calls u) :=
  runCallsWith_fol t (invoke_fol t hL n m hnm) calls emptyNet s u h


end EvalHost
end Verif
