import Verif.Spec.Steps
import Verif.Proofs.EvalLocal
/-!
# The step-by-step evaluator: adequacy and footprint
-/
namespace Verif
namespace Steps
open Eval Spec

variable {σ : Type u} (L : LigOps σ)

theorem run_andThen (k : Res Value → Prog) (p : Prog) : ∀ s, (p.andThen k).run L s = (k (p.run L s).1).run L (p.run L s).2 := by
  induction p with
  | ret r => intro s; rfl
  | ask q f ih => intro s; simp only [Prog.andThen, Prog.run]; exact ih _ _

theorem run_readP (args : List Value) (s : σ) : (readP args).run L s = (Eval.read L args s, s) := by
  unfold readP Eval.read
  split
  · rename_i name
    simp only [Prog.run, perform]
    cases L.entries s name <;> rfl
  · rename_i hx
    simp only [Prog.run]

theorem run_filterP (args : List Value) (s : σ) : (filterP args).run L s = (filterCmd L args s, s) := by
  unfold filterP filterCmd
  split
  · rename_i c f g h
    simp only [Prog.run, perform]
    cases L.filter s c (.role f h g) <;> rfl
  · rename_i hx
    simp only [Prog.run]

theorem run_letP (name : Element) (n : Network) (s : σ) : (letP name n).run L s = letStore L name n s := by
  unfold letP letStore
  simp only [Prog.run, perform]
  rcases h1 : L.addCollection s name with ⟨a, s1⟩
  rcases h2 : L.addEntries s1 name n with ⟨b, s2, es⟩
  cases a <;> simp only [Prog.run, perform, h2] <;> cases b <;> rfl

mutual
theorem run_evalArgP (v : Value) : ∀ s : σ, (evalArgP v).run L s = evalArg L common v s := by
  intro s
  match v with
  | .quote q => rw [evalArg, evalArgP]; exact run_runQuoteP q s
  | .element e => simp only [evalArg, evalArgP]; rfl
  | .network n => simp only [evalArg, evalArgP]; rfl

theorem run_runQuoteP (q : List Value) : ∀ s : σ, (runQuoteP q).run L s = runQuote L common q s := by
  intro s
  match q with
  | [] => simp only [runQuote, runQuoteP]; rfl
  | .element name :: args =>
    simp only [runQuote, runQuoteP]
    rcases common_get_both (σ := σ) (τ := Unit) name.text with ⟨b, d, h1, h2⟩ | ⟨h1, h2⟩
    · rw [h1, show table.get? name.text = _ from h2]; exact run_runFunP args b s
    · rw [h1, show table.get? name.text = _ from h2]; rfl
  | .quote _ :: _ => simp only [runQuote, runQuoteP]; rfl
  | .network _ :: _ => simp only [runQuote, runQuoteP]; rfl

theorem run_runFunP (args : List Value) : ∀ (b : Builtin) (s : σ), (runFunP (.builtin b) args).run L s = runFun L common (.builtin b) args s := by
  intro b s
  match b with
  | .docs => simp only [runFun, runFunP, Prog.run]; rw [show docs table args = _ from docs_common_both args]
  | .union => simp only [runFun, runFunP]; rfl
  | .id => simp only [runFun, runFunP]; rfl
  | .ignore => simp only [runFun, runFunP]; rfl
  | .read => simp only [runFun, runFunP]; exact run_readP L args s
  | .filter => simp only [runFun, runFunP]; exact run_filterP L args s
  | .assertEqual =>
    match args with
    | [left, right] =>
      simp only [runFun, runFunP]
      rw [run_andThen, run_evalArgP left s]
      rcases h1 : evalArg L common left s with ⟨a, s1⟩
      cases a with
      | ok l =>
        simp only
        rw [run_andThen, run_evalArgP right s1]
        rcases h2 : evalArg L common right s1 with ⟨c, s2⟩
        cases c <;> rfl
      | err m => rfl
      | panic => rfl
    | [] => simp only [runFun, runFunP]; rfl
    | [_] => simp only [runFun, runFunP]; rfl
    | _ :: _ :: _ :: _ => simp only [runFun, runFunP]; rfl
  | .assertFail =>
    match args with
    | [.quote q] =>
      simp only [runFun, runFunP]
      rw [run_andThen, run_evalArgP (.quote q) s]
      rcases h1 : evalArg L common (.quote q) s with ⟨a, s1⟩
      cases a <;> rfl
    | [.element _] => simp only [runFun, runFunP]; rfl
    | [.network _] => simp only [runFun, runFunP]; rfl
    | [] => simp only [runFun, runFunP]; rfl
    | _ :: _ :: _ => simp only [runFun, runFunP]; rfl
  | .let_ =>
    match args with
    | [.element name, .network n] => simp only [runFun, runFunP]; exact run_letP L name n s
    | [.element name, .quote q] =>
      simp only [runFun, runFunP]
      rw [run_andThen, run_evalArgP (.quote q) s]
      rcases h1 : evalArg L common (.quote q) s with ⟨a, s1⟩
      cases a with
      | ok v =>
        cases v with
        | network n => exact run_letP L name n s1
        | element e => rfl
        | quote q => rfl
      | err m => rfl
      | panic => rfl
    | [.element _, .element _] => simp only [runFun, runFunP]; rfl
    | [.quote _, _] => simp only [runFun, runFunP]; rfl
    | [.network _, _] => simp only [runFun, runFunP]; rfl
    | [] => simp only [runFun, runFunP]; rfl
    | [_] => simp only [runFun, runFunP]; rfl
    | _ :: _ :: _ :: _ => simp only [runFun, runFunP]; rfl
end

theorem run_runLoopP (calls : List Call) : ∀ (v : Value) (s : σ), (runLoopP calls v).run L s = runCallsLoop L common calls v s := by
  induction calls with
  | nil => intro v s; rfl
  | cons c cs ih =>
    intro v s
    simp only [runLoopP, runCallsLoop]
    rw [run_andThen]
    have hc : (callP c).run L s = runCall L common c s := by
      simp only [runCall, callP]
      rcases common_get_both (σ := σ) (τ := Unit) c.name.text with ⟨b, d, h1, h2⟩ | ⟨h1, h2⟩
      · rw [h1, show table.get? c.name.text = _ from h2]; exact run_runFunP L c.args b s
      · rw [h1, show table.get? c.name.text = _ from h2]; rfl
    rw [hc]
    rcases h1 : runCall L common c s with ⟨a, s1⟩
    cases a with
    | ok w => exact ih w s1
    | err m => rfl
    | panic => rfl

theorem run_callsP (calls : List Call) (s : σ) : (callsP calls).run L s = runCalls L common calls s := run_runLoopP L calls emptyNet s

theorem run_scriptP (script : Str) (s : σ) : (scriptP script).run L s = run L common script s := by
  unfold scriptP run
  cases Lexer.tokenizeAndFilter script with
  | err m => rfl
  | panic => rfl
  | ok tokens =>
    simp only
    cases Parser.parse tokens with
    | err m => rfl
    | panic => rfl
    | ok calls => exact run_callsP L calls s

/-! ## Footprint -/

theorem UsesOnly.mono {N N' : Str → Prop} (h : ∀ x, N x → N' x) (p : Prog) : UsesOnly N p → UsesOnly N' p := by
  induction p with
  | ret r => exact id
  | ask q k ih => exact fun ⟨h1, h2⟩ => ⟨h _ h1, fun a => ih a (h2 a)⟩

theorem usesOnly_andThen {N : Str → Prop} {k : Res Value → Prog} (hk : ∀ r, UsesOnly N (k r)) (p : Prog) : UsesOnly N p → UsesOnly N (p.andThen k) := by
  induction p with
  | ret r => exact fun _ => hk r
  | ask q f ih => exact fun ⟨h1, h2⟩ => ⟨h1, fun a => ih a (h2 a)⟩

theorem usesOnly_letP {N : Str → Prop} {name : Element} (h : N name.text) (n : Network) : UsesOnly N (letP name n) := by
  refine ⟨h, fun a => ?_⟩
  dsimp only
  split
  · trivial
  · refine ⟨h, fun a => ?_⟩
    dsimp only
    split <;> trivial

theorem usesOnly_readP {N : Str → Prop} {args : List Value} (h : ∀ n rest, args = .element n :: rest → N n.text) : UsesOnly N (readP args) := by
  unfold readP
  split
  · refine ⟨h _ _ rfl, fun a => ?_⟩
    dsimp only
    split <;> trivial
  · trivial

theorem usesOnly_filterP {N : Str → Prop} {args : List Value} (h : ∀ n rest, args = .element n :: rest → N n.text) : UsesOnly N (filterP args) := by
  unfold filterP
  split
  · refine ⟨h _ _ rfl, fun a => ?_⟩
    dsimp only
    split <;> trivial
  · trivial

variable {N : Str → Prop}

mutual
theorem usesOnly_evalArgP (v : Value) (hv : ∀ n, UsesIn n v → N n.text) : UsesOnly N (evalArgP v) := by
  match v with
  | .quote q => rw [evalArgP]; exact usesOnly_runQuoteP q hv
  | .element e => simp only [evalArgP]; trivial
  | .network n => simp only [evalArgP]; trivial

theorem usesOnly_runQuoteP (q : List Value) (hq : ∀ n, UsesIn n (.quote q) → N n.text) : UsesOnly N (runQuoteP q) := by
  match q with
  | [] => simp only [runQuoteP]; trivial
  | .element name :: args =>
    simp only [runQuoteP]
    rcases common_get_both (σ := Unit) (τ := Unit) name.text with ⟨b, d, h1, h2⟩ | ⟨h1, h2⟩
    · rw [show table.get? name.text = _ from h1]
      refine usesOnly_runFunP args b (fun n hn => hq n ?_)
      simp only [UsesIn, UsesInList]
      rcases hn with ⟨hb, rest, rfl⟩ | hn
      · left
        refine ⟨name, _, rfl, ?_, rest, rfl⟩
        have hbn := builtin_name h1
        simp only [List.mem_cons, List.not_mem_nil, or_false] at hb ⊢
        rcases hb with hb | hb | hb
        · exact .inl (hbn.1 hb)
        · exact .inr (.inl (hbn.2.1 hb))
        · exact .inr (.inr (hbn.2.2 hb))
      · exact .inr (.inr hn)
    · rw [show table.get? name.text = _ from h1]; trivial
  | .quote _ :: _ => simp only [runQuoteP]; trivial
  | .network _ :: _ => simp only [runQuoteP]; trivial

theorem usesOnly_runFunP (args : List Value) : ∀ b : Builtin, (∀ n, FunUses b args n → N n.text) → UsesOnly N (runFunP (.builtin b) args) := by
  intro b ha
  match b with
  | .docs => simp only [runFunP]; trivial
  | .union => simp only [runFunP]; trivial
  | .id => simp only [runFunP]; trivial
  | .ignore => simp only [runFunP]; trivial
  | .read => simp only [runFunP]; exact usesOnly_readP fun n rest e => ha n (.inl ⟨by simp, rest, e⟩)
  | .filter => simp only [runFunP]; exact usesOnly_filterP fun n rest e => ha n (.inl ⟨by simp, rest, e⟩)
  | .assertEqual =>
    match args with
    | [left, right] =>
      simp only [runFunP]
      refine usesOnly_andThen (fun r => ?_) _ (usesOnly_evalArgP left (fun n hn => ha n (.inr (by simp only [UsesInList]; exact .inl hn))))
      cases r with
      | ok l =>
        refine usesOnly_andThen (fun r => ?_) _ (usesOnly_evalArgP right (fun n hn => ha n (.inr (by simp only [UsesInList]; exact .inr (.inl hn)))))
        cases r <;> trivial
      | err m => trivial
      | panic => trivial
    | [] => simp only [runFunP]; trivial
    | [_] => simp only [runFunP]; trivial
    | _ :: _ :: _ :: _ => simp only [runFunP]; trivial
  | .assertFail =>
    match args with
    | [.quote q] =>
      simp only [runFunP]
      refine usesOnly_andThen (fun r => ?_) _ (usesOnly_evalArgP (.quote q) (fun n hn => ha n (.inr (by simp only [UsesInList]; exact .inl hn))))
      cases r <;> trivial
    | [.element _] => simp only [runFunP]; trivial
    | [.network _] => simp only [runFunP]; trivial
    | [] => simp only [runFunP]; trivial
    | _ :: _ :: _ => simp only [runFunP]; trivial
  | .let_ =>
    match args with
    | [.element name, .network n] => simp only [runFunP]; exact usesOnly_letP (ha name (.inl ⟨by simp, _, rfl⟩)) n
    | [.element name, .quote q] =>
      simp only [runFunP]
      refine usesOnly_andThen (fun r => ?_) _ (usesOnly_evalArgP (.quote q) (fun n hn => ha n (.inr (by simp only [UsesInList]; exact .inr (.inl hn)))))
      cases r with
      | ok v =>
        cases v with
        | network n => exact usesOnly_letP (ha name (.inl ⟨by simp, _, rfl⟩)) n
        | element e => trivial
        | quote q => trivial
      | err m => trivial
      | panic => trivial
    | [.element _, .element _] => simp only [runFunP]; trivial
    | [.quote _, _] => simp only [runFunP]; trivial
    | [.network _, _] => simp only [runFunP]; trivial
    | [] => simp only [runFunP]; trivial
    | [_] => simp only [runFunP]; trivial
    | _ :: _ :: _ :: _ => simp only [runFunP]; trivial
end

theorem usesOnly_runLoopP (calls : List Call) : (∀ c ∈ calls, ∀ n, CallUses n c → N n.text) → ∀ v, UsesOnly N (runLoopP calls v) := by
  induction calls with
  | nil => intro _ v; trivial
  | cons c cs ih =>
    intro hu v
    simp only [runLoopP]
    refine usesOnly_andThen (fun r => ?_) _ ?_
    · cases r with
      | ok w => exact ih (fun c h => hu c (List.mem_cons_of_mem _ h)) w
      | err m => trivial
      | panic => trivial
    · have := usesOnly_runQuoteP (N := N) (.element c.name :: c.args) (fun n hn => hu c List.mem_cons_self n (by
        simp only [UsesIn, UsesInList, List.cons.injEq, Value.element.injEq, false_or] at hn
        rcases hn with ⟨e, args, ⟨rfl, rfl⟩, h⟩ | h
        · exact .inl h
        · exact .inr h))
      simpa only [runQuoteP, callP] using this

theorem usesOnly_callsP (calls : List Call) : UsesOnly (CallsUse calls) (callsP calls) :=
  usesOnly_runLoopP calls (fun c hc n hn => ⟨c, hc, n, hn, rfl⟩) emptyNet

end Steps
end Verif
