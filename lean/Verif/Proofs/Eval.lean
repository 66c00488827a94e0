import Verif.Spec.Eval
import Verif.Model.EvalRec
/-!
# Proofs about the evaluator
-/
namespace Verif
namespace Eval
open Spec

variable {σ : Type u} {τ : Type v}

/-! ## Sequencing -/

section seq
variable (L : LigOps σ) (cmds : Commands σ)

theorem runCallsLoop_init (c : Call) (cs : List Call) (v w : Value) (s : σ) :
    runCallsLoop L cmds (c :: cs) v s = runCallsLoop L cmds (c :: cs) w s := rfl

theorem runCallsLoop_append (xs ys : List Call) : ∀ (v : Value) (s : σ),
    runCallsLoop L cmds (xs ++ ys) v s =
      match runCallsLoop L cmds xs v s with
      | (.ok w, s1) => runCallsLoop L cmds ys w s1
      | (.err m, s1) => (.err m, s1)
      | (.panic, s1) => (.panic, s1) := by
  induction xs with
  | nil => intro v s; rfl
  | cons c xs ih =>
    intro v s
    simp only [List.cons_append, runCallsLoop]
    rcases h : runCall L cmds c s with ⟨r, s1⟩
    cases r with
    | ok a => simp only [ih]
    | err m => rfl
    | panic => rfl

theorem runCalls_single (c : Call) (s : σ) : runCalls L cmds [c] s = runCall L cmds c s := by
  simp only [runCalls, runCallsLoop]
  rcases runCall L cmds c s with ⟨r, s1⟩
  cases r <;> rfl

theorem runCalls_append (xs ys : List Call) (s : σ) :
    runCalls L cmds (xs ++ ys) s =
      match runCalls L cmds xs s with
      | (.ok w, s1) => if ys = [] then (.ok w, s1) else runCalls L cmds ys s1
      | (.err m, s1) => (.err m, s1)
      | (.panic, s1) => (.panic, s1) := by
  simp only [runCalls, runCallsLoop_append]
  rcases runCallsLoop L cmds xs emptyNet s with ⟨r, s1⟩
  cases r with
  | ok w =>
    cases ys with
    | nil => rfl
    | cons c cs => simp [runCallsLoop]
  | err m => rfl
  | panic => rfl

theorem runQuote_eq (q : List Value) (s : σ) : runQuote L cmds q s = argValue L cmds (.quote q) s := by
  cases q with
  | nil => simp [runQuote, argValue, emptyNet]
  | cons v vs =>
    cases v with
    | element e =>
      simp only [runQuote, argValue, runCalls_single, runCall]
    | quote q => simp [runQuote, argValue]
    | network n => simp [runQuote, argValue]

theorem evalArg_eq (v : Value) (s : σ) : evalArg L cmds v s = argValue L cmds v s := by
  cases v with
  | element e => simp [evalArg, argValue]
  | network n => simp [evalArg, argValue]
  | quote q => rw [evalArg, runQuote_eq]

end seq

/-! ## Two stores, two tables -/

section rel
variable {R : σ → τ → Prop} {L : LigOps σ} {L' : LigOps τ} {cmds : Commands σ} {cmds' : Commands τ}

theorem letStore_rel (hL : LigRel R L L') (name : Element) (n : Network) (s : σ) (t : τ) (h : R s t) :
    OutRel R (letStore L name n s) (letStore L' name n t) := by
  unfold letStore
  obtain ⟨e1, r1⟩ := hL.addCollection s t name h
  rcases h1 : L.addCollection s name with ⟨a, s1⟩
  rcases h2 : L'.addCollection t name with ⟨b, t1⟩
  rw [h1, h2] at e1 r1
  simp only at e1 r1
  subst e1
  obtain ⟨e2, r2⟩ := hL.addEntries s1 t1 name n r1
  rcases h3 : L.addEntries s1 name n with ⟨c, s2, es⟩
  rcases h4 : L'.addEntries t1 name n with ⟨d, t2, es'⟩
  rw [h3, h4] at e2 r2
  simp only at e2 r2
  subst e2
  cases a <;> simp only [h3, h4] <;> first | exact ⟨rfl, r1⟩ | (cases c <;> exact ⟨rfl, r2⟩)

theorem read_rel (hL : LigRel R L L') (args : List Value) (s : σ) (t : τ) (h : R s t) : read L args s = read L' args t := by
  unfold read
  split
  · rw [hL.entries s t _ h]
  · rfl

theorem filterCmd_rel (hL : LigRel R L L') (args : List Value) (s : σ) (t : τ) (h : R s t) :
    filterCmd L args s = filterCmd L' args t := by
  unfold filterCmd
  split
  · rw [hL.filter s t _ _ h]
  · rfl

set_option linter.unusedSectionVars false
variable (hL : LigRel R L L')
  (hget : ∀ n, match cmds.get? n, cmds'.get? n with
    | some c, some c' => FunRel R c.fn c'.fn
    | none, none => True
    | _, _ => False)
  (hdocs : ∀ args, docs cmds args = docs cmds' args)

include hL hget hdocs

mutual
theorem evalArg_rel (v : Value) : ∀ s t, R s t → OutRel R (evalArg L cmds v s) (evalArg L' cmds' v t) := by
  intro s t h
  match v with
  | .quote q => rw [evalArg, evalArg]; exact runQuote_rel q s t h
  | .element e => simp only [evalArg]; exact ⟨rfl, h⟩
  | .network n => simp only [evalArg]; exact ⟨rfl, h⟩

theorem runQuote_rel (q : List Value) : ∀ s t, R s t → OutRel R (runQuote L cmds q s) (runQuote L' cmds' q t) := by
  intro s t h
  match q with
  | [] => simp only [runQuote]; exact ⟨rfl, h⟩
  | .element name :: args =>
    simp only [runQuote]
    have hg := hget name.text
    cases h1 : cmds.get? name.text with
    | none =>
      cases h2 : cmds'.get? name.text with
      | none => exact ⟨rfl, h⟩
      | some c => simp [h1, h2] at hg
    | some c =>
      cases h2 : cmds'.get? name.text with
      | none => simp [h1, h2] at hg
      | some c' =>
        simp only [h1, h2] at hg
        exact runFun_rel args c.fn c'.fn hg s t h
  | .quote _ :: _ => simp only [runQuote]; exact ⟨rfl, h⟩
  | .network _ :: _ => simp only [runQuote]; exact ⟨rfl, h⟩

theorem runFun_rel (args : List Value) : ∀ f f', FunRel R f f' → ∀ s t, R s t →
    OutRel R (runFun L cmds f args s) (runFun L' cmds' f' args t) := by
  intro f f' hf s t h
  match f, f', hf with
  | .host f, .host g, hf => simp only [runFun]; exact hf args s t h
  | .builtin .docs, .builtin .docs, _ => simp only [runFun]; exact ⟨hdocs args, h⟩
  | .builtin .union, .builtin .union, _ => simp only [runFun]; exact ⟨rfl, h⟩
  | .builtin .id, .builtin .id, _ => simp only [runFun]; exact ⟨rfl, h⟩
  | .builtin .ignore, .builtin .ignore, _ => simp only [runFun]; exact ⟨rfl, h⟩
  | .builtin .read, .builtin .read, _ => simp only [runFun]; exact ⟨read_rel hL args s t h, h⟩
  | .builtin .filter, .builtin .filter, _ => simp only [runFun]; exact ⟨filterCmd_rel hL args s t h, h⟩
  | .builtin .assertEqual, .builtin .assertEqual, _ =>
    match args with
    | [left, right] =>
      simp only [runFun]
      obtain ⟨e1, r1⟩ := evalArg_rel left s t h
      rcases h1 : evalArg L cmds left s with ⟨a, s1⟩
      rcases h2 : evalArg L' cmds' left t with ⟨b, t1⟩
      rw [h1, h2] at e1 r1
      simp only at e1 r1
      subst e1
      cases a with
      | ok l =>
        obtain ⟨e2, r2⟩ := evalArg_rel right s1 t1 r1
        rcases h3 : evalArg L cmds right s1 with ⟨c, s2⟩
        rcases h4 : evalArg L' cmds' right t1 with ⟨d, t2⟩
        rw [h3, h4] at e2 r2
        simp only at e2 r2
        subst e2
        simp only [h3, h4]
        cases c <;> exact ⟨rfl, r2⟩
      | err m => exact ⟨rfl, r1⟩
      | panic => exact ⟨rfl, r1⟩
    | [] => simp only [runFun]; exact ⟨rfl, h⟩
    | [_] => simp only [runFun]; exact ⟨rfl, h⟩
    | _ :: _ :: _ :: _ => simp only [runFun]; exact ⟨rfl, h⟩
  | .builtin .assertFail, .builtin .assertFail, _ =>
    match args with
    | [.quote q] =>
      simp only [runFun]
      obtain ⟨e1, r1⟩ := evalArg_rel (.quote q) s t h
      rcases h1 : evalArg L cmds (.quote q) s with ⟨a, s1⟩
      rcases h2 : evalArg L' cmds' (.quote q) t with ⟨b, t1⟩
      rw [h1, h2] at e1 r1
      simp only at e1 r1
      subst e1
      cases a <;> exact ⟨rfl, r1⟩
    | [.element _] => simp only [runFun]; exact ⟨rfl, h⟩
    | [.network _] => simp only [runFun]; exact ⟨rfl, h⟩
    | [] => simp only [runFun]; exact ⟨rfl, h⟩
    | _ :: _ :: _ => simp only [runFun]; exact ⟨rfl, h⟩
  | .builtin .let_, .builtin .let_, _ =>
    match args with
    | [.element name, .network n] => simp only [runFun]; exact letStore_rel hL name n s t h
    | [.element name, .quote q] =>
      simp only [runFun]
      obtain ⟨e1, r1⟩ := evalArg_rel (.quote q) s t h
      rcases h1 : evalArg L cmds (.quote q) s with ⟨a, s1⟩
      rcases h2 : evalArg L' cmds' (.quote q) t with ⟨b, t1⟩
      rw [h1, h2] at e1 r1
      simp only at e1 r1
      subst e1
      cases a with
      | ok v =>
        cases v with
        | network n => exact letStore_rel hL name n s1 t1 r1
        | element e => exact ⟨rfl, r1⟩
        | quote q => exact ⟨rfl, r1⟩
      | err m => exact ⟨rfl, r1⟩
      | panic => exact ⟨rfl, r1⟩
    | [.element _, .element _] => simp only [runFun]; exact ⟨rfl, h⟩
    | [.quote _, _] => simp only [runFun]; exact ⟨rfl, h⟩
    | [.network _, _] => simp only [runFun]; exact ⟨rfl, h⟩
    | [] => simp only [runFun]; exact ⟨rfl, h⟩
    | [_] => simp only [runFun]; exact ⟨rfl, h⟩
    | _ :: _ :: _ :: _ => simp only [runFun]; exact ⟨rfl, h⟩
end

theorem runCallsLoop_rel (calls : List Call) : ∀ (v : Value) s t, R s t →
    OutRel R (runCallsLoop L cmds calls v s) (runCallsLoop L' cmds' calls v t) := by
  induction calls with
  | nil => intro v s t h; exact ⟨rfl, h⟩
  | cons c cs ih =>
    intro v s t h
    simp only [runCallsLoop]
    have hc : OutRel R (runCall L cmds c s) (runCall L' cmds' c t) := by
      have := runQuote_rel hL hget hdocs (.element c.name :: c.args) s t h
      simpa only [runQuote, runCall] using this
    obtain ⟨e1, r1⟩ := hc
    rcases h1 : runCall L cmds c s with ⟨a, s1⟩
    rcases h2 : runCall L' cmds' c t with ⟨b, t1⟩
    rw [h1, h2] at e1 r1
    simp only at e1 r1
    subst e1
    cases a with
    | ok w => exact ih w s1 t1 r1
    | err m => exact ⟨rfl, r1⟩
    | panic => exact ⟨rfl, r1⟩

end rel
end Eval
end Verif
