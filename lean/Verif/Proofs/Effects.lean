import Verif.Spec.Effects
import Verif.Props.Evaluator
/-!
# The effect of a script is that of a sequence of lets
-/
namespace Verif
namespace Eval
open Spec

variable {σ : Type u} (L : LigOps σ)

theorem afterLet_eq (s : σ) (w : Element × Network) : afterLet L s w = (letStore L w.1 w.2 s).2 := by
  rw [afterLet, Props.common_let]

/-- From `s` to `s'` by lets of names in `N`. -/
def Effect (N : Element → Prop) (s s' : σ) : Prop := ∃ ws, (∀ w ∈ ws, N w.1) ∧ s' = afterLets L s ws

variable {L}
theorem Effect.refl {N} (s : σ) : Effect L N s s := ⟨[], by simp, rfl⟩
theorem Effect.trans {N} {a b c : σ} (h : Effect L N a b) (h' : Effect L N b c) : Effect L N a c := by
  obtain ⟨ws, h1, rfl⟩ := h
  obtain ⟨vs, h2, rfl⟩ := h'
  refine ⟨ws ++ vs, ?_, by simp [afterLets, List.foldl_append]⟩
  intro w hw
  rcases List.mem_append.mp hw with h | h
  · exact h1 w h
  · exact h2 w h
theorem Effect.mono {N N' : Element → Prop} {a b : σ} (hN : ∀ n, N n → N' n) (h : Effect L N a b) : Effect L N' a b := by
  obtain ⟨ws, h1, e⟩ := h
  exact ⟨ws, fun w hw => hN _ (h1 w hw), e⟩
theorem Effect.let {N} (name : Element) (n : Network) (s : σ) (h : N name) : Effect L N s (letStore L name n s).2 :=
  ⟨[(name, n)], by simpa using h, by simp [afterLets, afterLet_eq]⟩

/-- What a command can let, given its arguments. -/
def FunLets (b : Builtin) (args : List Value) (name : Element) : Prop :=
  (b = .let_ ∧ ∃ rest, args = .element name :: rest) ∨ LetsInList name args

variable (hlet : ∀ n c, (common : Commands σ).get? n = some c → c.fn = .builtin .let_ → n = lit "let")
include hlet
set_option linter.unusedSectionVars false

mutual
theorem evalArg_effect (v : Value) : ∀ s : σ, Effect L (fun n => LetsIn n v) s (evalArg L common v s).2 := by
  intro s
  match v with
  | .quote q => rw [evalArg]; exact runQuote_effect q s
  | .element e => simp only [evalArg]; exact .refl s
  | .network n => simp only [evalArg]; exact .refl s

theorem runQuote_effect (q : List Value) : ∀ s : σ, Effect L (fun n => LetsIn n (.quote q)) s (runQuote L common q s).2 := by
  intro s
  match q with
  | [] => simp only [runQuote]; exact .refl s
  | .element e :: args =>
    simp only [runQuote]
    cases h1 : (common : Commands σ).get? e.text with
    | none => exact .refl s
    | some c =>
      obtain ⟨b, hb⟩ : ∃ b, c.fn = .builtin b := by
        have hm : (e.text, c) ∈ (common : Commands σ) := mem_of_lookup h1
        simp only [common, List.mem_cons, Prod.mk.injEq, List.not_mem_nil, or_false] at hm
        rcases hm with ⟨_, rfl⟩ | ⟨_, rfl⟩ | ⟨_, rfl⟩ | ⟨_, rfl⟩ | ⟨_, rfl⟩ | ⟨_, rfl⟩ | ⟨_, rfl⟩ | ⟨_, rfl⟩ | ⟨_, rfl⟩ <;> exact ⟨_, rfl⟩
      simp only [hb]
      refine (runFun_effect args b s).mono ?_
      rintro n (⟨rfl, rest, rfl⟩ | h)
      · simp only [LetsIn]; exact .inl ⟨e, rest, rfl, hlet _ _ h1 hb⟩
      · simp only [LetsIn, LetsInList]; exact .inr (.inr h)
  | .quote _ :: _ => simp only [runQuote]; exact .refl s
  | .network _ :: _ => simp only [runQuote]; exact .refl s

theorem runFun_effect (args : List Value) : ∀ (b : Builtin) (s : σ),
    Effect L (FunLets b args) s (runFun L common (.builtin b) args s).2 := by
  intro b s
  match b with
  | .docs => simp only [runFun]; exact .refl s
  | .union => simp only [runFun]; exact .refl s
  | .id => simp only [runFun]; exact .refl s
  | .ignore => simp only [runFun]; exact .refl s
  | .read => simp only [runFun]; exact .refl s
  | .filter => simp only [runFun]; exact .refl s
  | .assertEqual =>
    match args with
    | [left, right] =>
      have e1 := evalArg_effect left s
      simp only [runFun]
      rcases h1 : evalArg L common left s with ⟨a, s1⟩
      rw [h1] at e1
      have e1' : Effect L (FunLets .assertEqual [left, right]) s s1 := e1.mono fun n h => .inr (by simp only [LetsInList]; exact .inl h)
      cases a with
      | ok l =>
        have e2 := evalArg_effect right s1
        rcases h3 : evalArg L common right s1 with ⟨c, s2⟩
        rw [h3] at e2
        have e2' : Effect L (FunLets .assertEqual [left, right]) s1 s2 :=
          e2.mono fun n h => .inr (by simp only [LetsInList]; exact .inr (.inl h))
        simp only [h3]
        cases c <;> exact e1'.trans e2'
      | err m => exact e1'
      | panic => exact e1'
    | [] => simp only [runFun]; exact .refl s
    | [_] => simp only [runFun]; exact .refl s
    | _ :: _ :: _ :: _ => simp only [runFun]; exact .refl s
  | .assertFail =>
    match args with
    | [.quote q] =>
      have e1 := evalArg_effect (.quote q) s
      simp only [runFun]
      rcases h1 : evalArg L common (.quote q) s with ⟨a, s1⟩
      rw [h1] at e1
      have e1' : Effect L (FunLets .assertFail [.quote q]) s s1 := e1.mono fun n h => .inr (by simp only [LetsInList]; exact .inl h)
      cases a <;> exact e1'
    | [.element _] => simp only [runFun]; exact .refl s
    | [.network _] => simp only [runFun]; exact .refl s
    | [] => simp only [runFun]; exact .refl s
    | _ :: _ :: _ => simp only [runFun]; exact .refl s
  | .let_ =>
    match args with
    | [.element name, .network n] => simp only [runFun]; exact .let name n s (.inl ⟨rfl, _, rfl⟩)
    | [.element name, .quote q] =>
      have e1 := evalArg_effect (.quote q) s
      simp only [runFun]
      rcases h1 : evalArg L common (.quote q) s with ⟨a, s1⟩
      rw [h1] at e1
      have e1' : Effect L (FunLets .let_ [.element name, .quote q]) s s1 :=
        e1.mono fun n h => .inr (by simp only [LetsInList]; exact .inr (.inl h))
      cases a with
      | ok v =>
        cases v with
        | network n => exact e1'.trans (.let name n s1 (.inl ⟨rfl, _, rfl⟩))
        | element e => exact e1'
        | quote q => exact e1'
      | err m => exact e1'
      | panic => exact e1'
    | [.element _, .element _] => simp only [runFun]; exact .refl s
    | [.quote _, _] => simp only [runFun]; exact .refl s
    | [.network _, _] => simp only [runFun]; exact .refl s
    | [] => simp only [runFun]; exact .refl s
    | [_] => simp only [runFun]; exact .refl s
    | _ :: _ :: _ :: _ => simp only [runFun]; exact .refl s
end

theorem runCallsLoop_effect (calls : List Call) : ∀ (v : Value) (s : σ),
    Effect L (fun n => ∃ c ∈ calls, CallLets n c) s (runCallsLoop L common calls v s).2 := by
  induction calls with
  | nil => intro v s; exact .refl s
  | cons c cs ih =>
    intro v s
    have e : Effect L (fun n => ∃ c' ∈ c :: cs, CallLets n c') s (runCall L common c s).2 := by
      have h := runQuote_effect (L := L) hlet (.element c.name :: c.args) s
      have e2 : (runQuote L common (.element c.name :: c.args) s).2 = (runCall L common c s).2 := by simp only [runQuote, runCall]
      rw [e2] at h
      refine h.mono fun n hn => ⟨c, List.mem_cons_self, ?_⟩
      simp only [LetsIn, LetsInList, List.cons.injEq, Value.element.injEq, false_or] at hn
      rcases hn with ⟨e, rest, ⟨rfl, h1⟩, h2⟩ | h
      · exact .inl ⟨h2, rest, h1⟩
      · exact .inr h
    simp only [runCallsLoop]
    rcases h1 : runCall L common c s with ⟨r, s1⟩
    rw [h1] at e
    cases r with
    | ok w => exact e.trans ((ih w s1).mono fun n ⟨c', h, h'⟩ => ⟨c', List.mem_cons_of_mem _ h, h'⟩)
    | err m => exact e
    | panic => exact e

end Eval
end Verif
