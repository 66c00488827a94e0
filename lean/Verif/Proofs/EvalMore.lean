import Verif.Proofs.Eval
/-!
# Proofs about the evaluator: no writes without `let`, and nesting of invocations
-/
namespace Verif
namespace Eval
open Spec

variable {σ : Type u} (L : LigOps σ)

section frozen
variable {cmds : Commands σ} {name : Str}
  (hc : ∀ n c, n ≠ name → cmds.get? n = some c → ∃ b, c.fn = .builtin b ∧ b ≠ .let_)
include hc
set_option linter.unusedSectionVars false

mutual
theorem evalArg_frozen (v : Value) : ¬ Mentions name v → ∀ s : σ, (evalArg L cmds v s).2 = s := by
  intro hm s
  match v with
  | .quote q => rw [evalArg]; exact runQuote_frozen q hm s
  | .element e => simp only [evalArg]
  | .network n => simp only [evalArg]

theorem runQuote_frozen (q : List Value) : ¬ Mentions name (.quote q) → ∀ s : σ, (runQuote L cmds q s).2 = s := by
  intro hm s
  match q with
  | [] => simp only [runQuote]
  | .element e :: args =>
    simp only [runQuote]
    simp only [Mentions, MentionsList, not_or] at hm
    have hne : e.text ≠ name := fun h => hm.1 ⟨e, args, rfl, h⟩
    cases h1 : cmds.get? e.text with
    | none => rfl
    | some c =>
      obtain ⟨b, hb, hb'⟩ := hc _ c hne h1
      simp only [hb]
      exact runFun_frozen args hm.2.2 b hb' s
  | .quote _ :: _ => simp only [runQuote]
  | .network _ :: _ => simp only [runQuote]

theorem runFun_frozen (args : List Value) : ¬ MentionsList name args → ∀ b, b ≠ Builtin.let_ → ∀ s : σ,
    (runFun L cmds (.builtin b) args s).2 = s := by
  intro hm b hb s
  match b, hb with
  | .docs, _ => simp only [runFun]
  | .union, _ => simp only [runFun]
  | .id, _ => simp only [runFun]
  | .ignore, _ => simp only [runFun]
  | .read, _ => simp only [runFun]
  | .filter, _ => simp only [runFun]
  | .assertEqual, _ =>
    match args with
    | [left, right] =>
      simp only [MentionsList, not_or] at hm
      have e1 := evalArg_frozen left hm.1 s
      simp only [runFun]
      rcases h1 : evalArg L cmds left s with ⟨a, s1⟩
      rw [h1] at e1
      simp only at e1
      subst e1
      cases a with
      | ok l =>
        have e2 := evalArg_frozen right hm.2.1 s1
        rcases h3 : evalArg L cmds right s1 with ⟨c, s2⟩
        rw [h3] at e2
        simp only at e2
        subst e2
        simp only [h3]
        cases c <;> rfl
      | err m => rfl
      | panic => rfl
    | [] => simp only [runFun]
    | [_] => simp only [runFun]
    | _ :: _ :: _ :: _ => simp only [runFun]
  | .assertFail, _ =>
    match args with
    | [.quote q] =>
      simp only [MentionsList, not_or] at hm
      have e1 := evalArg_frozen (.quote q) hm.1 s
      simp only [runFun]
      rcases h1 : evalArg L cmds (.quote q) s with ⟨a, s1⟩
      rw [h1] at e1
      simp only at e1
      subst e1
      cases a <;> rfl
    | [.element _] => simp only [runFun]
    | [.network _] => simp only [runFun]
    | [] => simp only [runFun]
    | _ :: _ :: _ => simp only [runFun]
end

theorem runCallsLoop_frozen (calls : List Call) (h : ∀ c ∈ calls, ¬ CallMentions name c) : ∀ (v : Value) (s : σ),
    (runCallsLoop L cmds calls v s).2 = s := by
  induction calls with
  | nil => intro v s; rfl
  | cons c cs ih =>
    intro v s
    have hc' := h c List.mem_cons_self
    simp only [CallMentions, not_or] at hc'
    have e : (runCall L cmds c s).2 = s := by
      unfold runCall
      cases h1 : cmds.get? c.name.text with
      | none => rfl
      | some cmd =>
        obtain ⟨b, hb, hb'⟩ := hc _ cmd hc'.1 h1
        simp only [hb]
        exact runFun_frozen L hc c.args hc'.2 b hb' s
    simp only [runCallsLoop]
    rcases h1 : runCall L cmds c s with ⟨r, s1⟩
    rw [h1] at e
    simp only at e
    subst e
    cases r with
    | ok w => exact ih (fun c hc => h c (List.mem_cons_of_mem _ hc)) w s1
    | err m => rfl
    | panic => rfl

end frozen

/-! ## Nesting -/

variable (cmds : Commands σ)

theorem runQuoteWith_eq (limit : Nat)
    (ih : ∀ f args (s : σ), depthList args + 1 ≤ limit → EvalRec.invoke L cmds limit f args s = some (runFun L cmds f args s))
    (q : List Value) (s : σ) (h : depthList q + 1 ≤ limit) :
    EvalRec.runQuoteWith cmds (EvalRec.invoke L cmds limit) q s = some (runQuote L cmds q s) := by
  match q with
  | [] => simp [EvalRec.runQuoteWith, runQuote]
  | .element name :: args =>
    simp only [EvalRec.runQuoteWith, runQuote, EvalRec.runCallsWith]
    cases cmds.get? name.text with
    | none => rfl
    | some c =>
      have hd : depthList args + 1 ≤ limit := by
        simp only [depthList, depth] at h; omega
      simp only [ih c.fn args s hd]
      rcases runFun L cmds c.fn args s with ⟨r, s1⟩
      cases r <;> rfl
  | .quote _ :: _ => simp [EvalRec.runQuoteWith, runQuote]
  | .network _ :: _ => simp [EvalRec.runQuoteWith, runQuote]

theorem evalArgWith_eq (limit : Nat)
    (ih : ∀ f args (s : σ), depthList args + 1 ≤ limit → EvalRec.invoke L cmds limit f args s = some (runFun L cmds f args s))
    (v : Value) (s : σ) (h : depth v ≤ limit) :
    EvalRec.evalArgWith cmds (EvalRec.invoke L cmds limit) v s = some (evalArg L cmds v s) := by
  match v with
  | .quote q => simp only [EvalRec.evalArgWith, evalArg]; exact runQuoteWith_eq L cmds limit ih q s h
  | .element e => simp only [EvalRec.evalArgWith, evalArg]
  | .network n => simp only [EvalRec.evalArgWith, evalArg]

theorem invoke_eq (limit : Nat) : ∀ f args (s : σ), depthList args + 1 ≤ limit →
    EvalRec.invoke L cmds limit f args s = some (runFun L cmds f args s) := by
  induction limit with
  | zero => intro f args s h; omega
  | succ limit ih =>
    intro f args s h
    match f with
    | .host g => simp only [EvalRec.invoke, runFun]
    | .builtin .docs => simp only [EvalRec.invoke, runFun]
    | .builtin .union => simp only [EvalRec.invoke, runFun]
    | .builtin .id => simp only [EvalRec.invoke, runFun]
    | .builtin .ignore => simp only [EvalRec.invoke, runFun]
    | .builtin .read => simp only [EvalRec.invoke, runFun]
    | .builtin .filter => simp only [EvalRec.invoke, runFun]
    | .builtin .assertEqual =>
      match args with
      | [left, right] =>
        simp only [depthList] at h
        simp only [EvalRec.invoke, runFun, evalArgWith_eq L cmds limit ih left s (by omega)]
        rcases evalArg L cmds left s with ⟨a, s1⟩
        cases a with
        | ok l =>
          simp only [evalArgWith_eq L cmds limit ih right s1 (by omega)]
          rcases evalArg L cmds right s1 with ⟨b, s2⟩
          cases b <;> rfl
        | err m => rfl
        | panic => rfl
      | [] => simp only [EvalRec.invoke, runFun]
      | [_] => simp only [EvalRec.invoke, runFun]
      | _ :: _ :: _ :: _ => simp only [EvalRec.invoke, runFun]
    | .builtin .assertFail =>
      match args with
      | [.quote q] =>
        simp only [depthList, depth] at h
        simp only [EvalRec.invoke, runFun, evalArg, runQuoteWith_eq L cmds limit ih q s (by omega)]
        rcases runQuote L cmds q s with ⟨a, s1⟩
        cases a <;> rfl
      | [.element _] => simp only [EvalRec.invoke, runFun]
      | [.network _] => simp only [EvalRec.invoke, runFun]
      | [] => simp only [EvalRec.invoke, runFun]
      | _ :: _ :: _ => simp only [EvalRec.invoke, runFun]
    | .builtin .let_ =>
      match args with
      | [.element name, .network n] => simp only [EvalRec.invoke, runFun]
      | [.element name, .quote q] =>
        simp only [depthList, depth] at h
        simp only [EvalRec.invoke, runFun, evalArg, runQuoteWith_eq L cmds limit ih q s (by omega)]
        rcases runQuote L cmds q s with ⟨a, s1⟩
        cases a with
        | ok v => cases v <;> rfl
        | err m => rfl
        | panic => rfl
      | [.element _, .element _] => simp only [EvalRec.invoke, runFun]
      | [.quote _, _] => simp only [EvalRec.invoke, runFun]
      | [.network _, _] => simp only [EvalRec.invoke, runFun]
      | [] => simp only [EvalRec.invoke, runFun]
      | [_] => simp only [EvalRec.invoke, runFun]
      | _ :: _ :: _ :: _ => simp only [EvalRec.invoke, runFun]

theorem runCallsRec_eq (limit : Nat) (calls : List Call) (h : ∀ c ∈ calls, depthList c.args + 1 ≤ limit) :
    ∀ (v : Value) (s : σ),
    EvalRec.runCallsWith cmds (EvalRec.invoke L cmds limit) calls v s = some (runCallsLoop L cmds calls v s) := by
  induction calls with
  | nil => intro v s; rfl
  | cons c cs ih =>
    intro v s
    simp only [EvalRec.runCallsWith, runCallsLoop, runCall]
    cases cmds.get? c.name.text with
    | none => rfl
    | some cmd =>
      simp only [invoke_eq L cmds limit cmd.fn c.args s (h c List.mem_cons_self)]
      rcases runFun L cmds cmd.fn c.args s with ⟨r, s1⟩
      cases r with
      | ok w => exact ih (fun c hc => h c (List.mem_cons_of_mem _ hc)) w s1
      | err m => rfl
      | panic => rfl

/-! ## The standard table -/

theorem mem_of_lookup {α β} [BEq α] [LawfulBEq α] {a : α} {b : β} : ∀ {l : List (α × β)}, l.lookup a = some b → (a, b) ∈ l
  | [], h => by simp at h
  | (x, y) :: l, h => by
    rw [List.lookup_cons] at h
    split at h
    · rename_i e; simp at e h; subst e h; simp
    · exact List.mem_cons_of_mem _ (mem_of_lookup h)

theorem lookup_none_iff {α β} [BEq α] [LawfulBEq α] {a : α} : ∀ {l : List (α × β)}, l.lookup a = none ↔ ∀ p ∈ l, p.1 ≠ a
  | [] => by simp
  | (x, y) :: l => by
    rw [List.lookup_cons]
    by_cases e : a = x
    · subst e; simp
    · have e' : (a == x) = false := by simpa using e
      simp only [e', lookup_none_iff (l := l), List.mem_cons, forall_eq_or_imp]
      exact ⟨fun h => ⟨fun h' => e h'.symm, h⟩, fun h => h.2⟩

theorem lookup_of_mem {α β} [BEq α] [LawfulBEq α] {a : α} {b : β} : ∀ {l : List (α × β)}, (l.map Prod.fst).Nodup → (a, b) ∈ l →
    l.lookup a = some b
  | [], _, h => by simp at h
  | (x, y) :: l, hn, h => by
    rw [List.lookup_cons]
    simp only [List.map_cons, List.nodup_cons] at hn
    rw [List.mem_cons] at h
    rcases h with h | h
    · cases h; simp
    · have : a ≠ x := by
        rintro rfl
        exact hn.1 (List.mem_map.mpr ⟨_, h, rfl⟩)
      have e' : (a == x) = false := by simpa using this
      simp only [e']
      exact lookup_of_mem hn.2 h

theorem common_get (n : Str) (c : Command σ) (hn : n ≠ lit "let") (h : (common : Commands σ).get? n = some c) :
    ∃ b, c.fn = .builtin b ∧ b ≠ .let_ := by
  have := mem_of_lookup h
  simp only [common, List.mem_cons, Prod.mk.injEq, List.not_mem_nil, or_false] at this
  rcases this with ⟨h, rfl⟩ | ⟨h, rfl⟩ | ⟨h, rfl⟩ | ⟨h, rfl⟩ | ⟨h, rfl⟩ | ⟨h, rfl⟩ | ⟨h, rfl⟩ | ⟨h, rfl⟩ | ⟨h, rfl⟩
  case inr.inr.inr.inl => exact absurd ‹n = lit "let"› hn
  all_goals exact ⟨_, rfl, by decide⟩

theorem common_wf : (common : Commands σ).WF := by
  simp only [Commands.WF, common, List.map_cons, List.map_nil]
  decide

theorem get_perm {cmds cmds' : Commands σ} (hw : cmds.WF) (hp : cmds.Perm cmds') (n : Str) : cmds.get? n = cmds'.get? n := by
  have hw' : (cmds'.map Prod.fst).Nodup := ((hp.map Prod.fst).nodup_iff).mp hw
  unfold Commands.get?
  cases h : cmds.lookup n with
  | none =>
    symm
    rw [lookup_none_iff] at h ⊢
    intro p hp'; exact h p (hp.symm.subset hp')
  | some c => exact (lookup_of_mem hw' (hp.subset (mem_of_lookup h))).symm

theorem mem_docs (cmds : Commands σ) (e : Entry) : ∀ acc : Network,
    e ∈ cmds.foldl (fun results p => results.insert (.role (.of p.1) (.of p.2.doc) (.of (lit "docString")))) acc ↔
      e ∈ acc ∨ ∃ p ∈ cmds, e = .role (.of p.1) (.of p.2.doc) (.of (lit "docString")) := by
  induction cmds with
  | nil => intro acc; simp
  | cons p cmds ih =>
    intro acc
    rw [List.foldl_cons, ih]
    simp only [BSet.mem_insert, List.mem_cons, exists_eq_or_imp]
    constructor
    · rintro ((h | h) | h)
      · exact .inr (.inl h)
      · exact .inl h
      · exact .inr (.inr h)
    · rintro (h | h | h)
      · exact .inl (.inr h)
      · exact .inl (.inl h)
      · exact .inr h

theorem docs_perm {cmds cmds' : Commands σ} (hp : cmds.Perm cmds') (args : List Value) : docs cmds args = docs cmds' args := by
  unfold docs
  split
  · congr 2
    apply BSet.ext; intro e
    rw [mem_docs, mem_docs]
    simp only [BSet.not_mem_empty, false_or]
    exact ⟨fun ⟨p, h, e⟩ => ⟨p, hp.subset h, e⟩, fun ⟨p, h, e⟩ => ⟨p, hp.symm.subset h, e⟩⟩
  · rfl

end Eval
end Verif
