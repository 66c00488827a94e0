import Verif.Spec.Strict
/-!
# One store following another as long as the other does not panic
-/
namespace Verif
namespace Eval
open Spec

variable {σ : Type u} {τ : Type v}

theorem lookup_builtins (l : List (Str × Str × Builtin)) (n : Str) :
    List.lookup n (l.map fun p => (p.1, (⟨p.2.1, .builtin p.2.2⟩ : Command σ))) =
      (l.lookup n).map fun p => ⟨p.1, .builtin p.2⟩ := by
  induction l with
  | nil => rfl
  | cons p l ih =>
    obtain ⟨k, d, b⟩ := p
    simp only [List.map_cons, List.lookup_cons, ih]
    split <;> rfl

/-- The standard table gives the same command in both. -/
theorem common_get_both (n : Str) :
    (∃ b d, (common : Commands σ).get? n = some ⟨d, .builtin b⟩ ∧ (common : Commands τ).get? n = some ⟨d, .builtin b⟩) ∨
    ((common : Commands σ).get? n = none ∧ (common : Commands τ).get? n = none) := by
  have h : ∃ l : List (Str × Str × Builtin),
      (common : Commands σ) = (l.map fun p => (p.1, (⟨p.2.1, .builtin p.2.2⟩ : Command σ))) ∧
      (common : Commands τ) = (l.map fun p => (p.1, (⟨p.2.1, .builtin p.2.2⟩ : Command τ))) := by
    refine ⟨(common : Commands Unit).map fun p => (p.1, p.2.doc, match p.2.fn with
      | .builtin b => b
      | .host _ => .ignore), rfl, rfl⟩
  obtain ⟨l, h1, h2⟩ := h
  simp only [Commands.get?]
  rw [h1, h2, lookup_builtins, lookup_builtins]
  cases l.lookup n with
  | none => exact .inr ⟨rfl, rfl⟩
  | some p => exact .inl ⟨_, _, rfl, rfl⟩

theorem docs_common_both (args : List Value) : docs (common : Commands σ) args = docs (common : Commands τ) args := by
  cases args <;> rfl

/-- As long as the first does not panic: equal answers and related states. -/
def Follows (R : σ → τ → Prop) (a : Res α × σ) (b : Res α × τ) : Prop := a.1 ≠ .panic → b.1 = a.1 ∧ R a.2 b.2

variable {R : σ → τ → Prop} {L : LigOps σ} {L' : LigOps τ}

theorem letStore_sim (hL : LigSim R L L') (name : Element) (n : Network) (s : σ) (t : τ) (h : R s t) :
    Follows R (letStore L name n s) (letStore L' name n t) := by
  intro hp
  unfold letStore at hp ⊢
  have h1 := hL.addCollection s t name h
  rcases e1 : L.addCollection s name with ⟨a, s1⟩
  rcases e2 : L'.addCollection t name with ⟨b, t1⟩
  rw [e1] at hp
  rw [e1, e2] at h1
  have ha : a ≠ .panic := by rintro rfl; exact hp rfl
  obtain ⟨hb, r1⟩ := h1 ha
  simp only at hb r1
  subst hb
  have h2 := hL.addEntries s1 t1 name n r1
  rcases e3 : L.addEntries s1 name n with ⟨c, s2, es⟩
  rcases e4 : L'.addEntries t1 name n with ⟨d, t2, es'⟩
  rw [e3, e4] at h2
  have hc : c ≠ .panic := by
    rintro rfl
    cases b <;> simp_all
  obtain ⟨hd, r2⟩ := h2 hc
  simp only at hd r2
  subst hd
  cases b with
  | panic => exact absurd rfl ha
  | ok _ =>
    simp only [e3, e4]
    cases d with
    | panic => exact absurd rfl hc
    | ok _ => exact ⟨trivial, r2⟩
    | err _ => exact ⟨trivial, r2⟩
  | err _ =>
    simp only [e3, e4]
    cases d with
    | panic => exact absurd rfl hc
    | ok _ => exact ⟨trivial, r2⟩
    | err _ => exact ⟨trivial, r2⟩

theorem read_sim (hL : LigSim R L L') (args : List Value) (s : σ) (t : τ) (h : R s t) (hp : read L args s ≠ .panic) :
    read L' args t = read L args s := by
  unfold read at hp ⊢
  split
  · simp only at hp
    rw [hL.entries s t _ h]
    intro e; rw [e] at hp; exact hp rfl
  · rfl

theorem filterCmd_sim (hL : LigSim R L L') (args : List Value) (s : σ) (t : τ) (h : R s t) (hp : filterCmd L args s ≠ .panic) :
    filterCmd L' args t = filterCmd L args s := by
  unfold filterCmd at hp ⊢
  split
  · simp only at hp
    rw [hL.filter s t _ _ h]
    intro e; rw [e] at hp; exact hp rfl
  · rfl

set_option linter.unusedSectionVars false
variable (hL : LigSim R L L')
include hL

mutual
theorem evalArg_sim (v : Value) : ∀ s t, R s t → Follows R (evalArg L common v s) (evalArg L' common v t) := by
  intro s t h
  match v with
  | .quote q => rw [evalArg, evalArg]; exact runQuote_sim q s t h
  | .element e => simp only [evalArg]; exact fun _ => ⟨rfl, h⟩
  | .network n => simp only [evalArg]; exact fun _ => ⟨rfl, h⟩

theorem runQuote_sim (q : List Value) : ∀ s t, R s t → Follows R (runQuote L common q s) (runQuote L' common q t) := by
  intro s t h
  match q with
  | [] => simp only [runQuote]; exact fun _ => ⟨rfl, h⟩
  | .element name :: args =>
    simp only [runQuote]
    rcases common_get_both (σ := σ) (τ := τ) name.text with ⟨b, d, h1, h2⟩ | ⟨h1, h2⟩
    · rw [h1, h2]; exact runFun_sim args b s t h
    · rw [h1, h2]; exact fun _ => ⟨rfl, h⟩
  | .quote _ :: _ => simp only [runQuote]; exact fun _ => ⟨rfl, h⟩
  | .network _ :: _ => simp only [runQuote]; exact fun _ => ⟨rfl, h⟩

theorem runFun_sim (args : List Value) : ∀ b : Builtin, ∀ s t, R s t →
    Follows R (runFun L common (.builtin b) args s) (runFun L' common (.builtin b) args t) := by
  intro b s t h
  match b with
  | .docs => simp only [runFun]; exact fun _ => ⟨docs_common_both args, h⟩
  | .union => simp only [runFun]; exact fun _ => ⟨rfl, h⟩
  | .id => simp only [runFun]; exact fun _ => ⟨rfl, h⟩
  | .ignore => simp only [runFun]; exact fun _ => ⟨rfl, h⟩
  | .read => simp only [runFun]; exact fun hp => ⟨read_sim hL args s t h hp, h⟩
  | .filter => simp only [runFun]; exact fun hp => ⟨filterCmd_sim hL args s t h hp, h⟩
  | .assertEqual =>
    match args with
    | [left, right] =>
      simp only [runFun]
      have h1 := evalArg_sim left s t h
      rcases e1 : evalArg L common left s with ⟨a, s1⟩
      rcases e2 : evalArg L' common left t with ⟨b, t1⟩
      rw [e1, e2] at h1
      intro hp
      cases a with
      | panic => exact absurd rfl hp
      | err m =>
        obtain ⟨hb, r1⟩ := h1 (by simp)
        simp only at hb r1
        subst hb; exact ⟨rfl, r1⟩
      | ok l =>
        obtain ⟨hb, r1⟩ := h1 (by simp)
        simp only at hb r1
        subst hb
        have h2 := evalArg_sim right s1 t1 r1
        rcases e3 : evalArg L common right s1 with ⟨c, s2⟩
        rcases e4 : evalArg L' common right t1 with ⟨d, t2⟩
        rw [e3, e4] at h2
        simp only [e3, e4] at hp ⊢
        cases c with
        | panic => exact absurd rfl hp
        | err m =>
          obtain ⟨hb, r2⟩ := h2 (by simp)
          simp only at hb r2
          subst hb; exact ⟨rfl, r2⟩
        | ok l =>
          obtain ⟨hb, r2⟩ := h2 (by simp)
          simp only at hb r2
          subst hb; exact ⟨rfl, r2⟩
    | [] => simp only [runFun]; exact fun _ => ⟨rfl, h⟩
    | [_] => simp only [runFun]; exact fun _ => ⟨rfl, h⟩
    | _ :: _ :: _ :: _ => simp only [runFun]; exact fun _ => ⟨rfl, h⟩
  | .assertFail =>
    match args with
    | [.quote q] =>
      simp only [runFun]
      have h1 := evalArg_sim (.quote q) s t h
      rcases e1 : evalArg L common (.quote q) s with ⟨a, s1⟩
      rcases e2 : evalArg L' common (.quote q) t with ⟨b, t1⟩
      rw [e1, e2] at h1
      intro hp
      cases a with
      | panic => exact absurd rfl hp
      | err m =>
        obtain ⟨hb, r1⟩ := h1 (by simp)
        simp only at hb r1
        subst hb; exact ⟨rfl, r1⟩
      | ok m =>
        obtain ⟨hb, r1⟩ := h1 (by simp)
        simp only at hb r1
        subst hb; exact ⟨rfl, r1⟩
    | [.element _] => simp only [runFun]; exact fun _ => ⟨rfl, h⟩
    | [.network _] => simp only [runFun]; exact fun _ => ⟨rfl, h⟩
    | [] => simp only [runFun]; exact fun _ => ⟨rfl, h⟩
    | _ :: _ :: _ => simp only [runFun]; exact fun _ => ⟨rfl, h⟩
  | .let_ =>
    match args with
    | [.element name, .network n] => simp only [runFun]; exact letStore_sim hL name n s t h
    | [.element name, .quote q] =>
      simp only [runFun]
      have h1 := evalArg_sim (.quote q) s t h
      rcases e1 : evalArg L common (.quote q) s with ⟨a, s1⟩
      rcases e2 : evalArg L' common (.quote q) t with ⟨b, t1⟩
      rw [e1, e2] at h1
      intro hp
      cases a with
      | panic => exact absurd rfl hp
      | err m => exact absurd rfl hp
      | ok v =>
        obtain ⟨hb, r1⟩ := h1 (by simp)
        simp only at hb r1
        subst hb
        cases v with
        | network n => exact letStore_sim hL name n s1 t1 r1 hp
        | element e => exact absurd rfl hp
        | quote q => exact absurd rfl hp
    | [.element _, .element _] => simp only [runFun]; exact fun _ => ⟨rfl, h⟩
    | [.quote _, _] => simp only [runFun]; exact fun _ => ⟨rfl, h⟩
    | [.network _, _] => simp only [runFun]; exact fun _ => ⟨rfl, h⟩
    | [] => simp only [runFun]; exact fun _ => ⟨rfl, h⟩
    | [_] => simp only [runFun]; exact fun _ => ⟨rfl, h⟩
    | _ :: _ :: _ :: _ => simp only [runFun]; exact fun _ => ⟨rfl, h⟩
end

theorem runCallsLoop_sim (calls : List Call) : ∀ (v : Value) s t, R s t →
    Follows R (runCallsLoop L common calls v s) (runCallsLoop L' common calls v t) := by
  induction calls with
  | nil => intro v s t h _; exact ⟨rfl, h⟩
  | cons c cs ih =>
    intro v s t h
    simp only [runCallsLoop]
    have hc : Follows R (runCall L common c s) (runCall L' common c t) := by
      have := runQuote_sim hL (.element c.name :: c.args) s t h
      simpa only [runQuote, runCall] using this
    rcases e1 : runCall L common c s with ⟨a, s1⟩
    rcases e2 : runCall L' common c t with ⟨b, t1⟩
    rw [e1, e2] at hc
    intro hp
    cases a with
    | panic => exact absurd rfl hp
    | err m =>
      obtain ⟨hb, r1⟩ := hc (by simp)
      simp only at hb r1
      subst hb; exact ⟨rfl, r1⟩
    | ok w =>
      obtain ⟨hb, r1⟩ := hc (by simp)
      simp only at hb r1
      subst hb; exact ih w s1 t1 r1 hp

theorem run_sim (script : Str) (s : σ) (t : τ) (h : R s t) : Follows R (run L common script s) (run L' common script t) := by
  unfold run
  cases Lexer.tokenizeAndFilter script with
  | err m => exact fun _ => ⟨rfl, h⟩
  | panic => exact fun _ => ⟨rfl, h⟩
  | ok ts =>
    simp only
    cases Parser.parse ts with
    | err m => exact fun _ => ⟨rfl, h⟩
    | panic => exact fun _ => ⟨rfl, h⟩
    | ok calls => exact runCallsLoop_sim hL calls _ s t h

end Eval
end Verif
