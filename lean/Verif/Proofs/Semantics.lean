import Verif.Spec.Semantics
import Verif.Proofs.EvalMore
/-!
# The evaluator follows the rules, and nothing else
-/
namespace Verif
namespace Eval
open Spec

variable {σ : Type u} {L : LigOps σ} {cmds : Commands σ}

theorem has_get (hw : cmds.WF) {name : Str} {f : CmdFun σ} (h : Has cmds name f) : ∃ doc, cmds.get? name = some ⟨doc, f⟩ := by
  obtain ⟨doc, h⟩ := h
  exact ⟨doc, lookup_of_mem hw h⟩

theorem get_has {name : Str} {c : Command σ} (h : cmds.get? name = some c) : Has cmds name c.fn := ⟨c.doc, mem_of_lookup h⟩

theorem docs_nil {n : Network} : docs cmds [] = .ok (.network n) ↔
    ∀ e, e ∈ n ↔ ∃ p ∈ cmds, e = .role ⟨p.1, none, none⟩ ⟨p.2.doc, none, none⟩ ⟨lit "docString", none, none⟩ := by
  have : ∀ e, e ∈ (cmds.foldl (fun results p => results.insert (.role (.of p.1) (.of p.2.doc) (.of (lit "docString")))) (∅ : Network)) ↔
      ∃ p ∈ cmds, e = .role ⟨p.1, none, none⟩ ⟨p.2.doc, none, none⟩ ⟨lit "docString", none, none⟩ := by
    intro e
    rw [mem_docs]
    simp [Element.of]
  simp only [docs, Res.ok.injEq, Value.network.injEq]
  constructor
  · rintro rfl; exact this
  · intro h
    apply BSet.ext
    intro e
    rw [this, h]

theorem plain_sound {b : Builtin} {args : List Value} {s s' : σ} {r : Res Value} (h : Plain L cmds b args s r s') :
    runFun L cmds (.builtin b) args s = (r, s') := by
  cases h with
  | id => simp only [runFun, idCmd]
  | idArgs h =>
    simp only [runFun, idCmd]
    split
    · exact absurd rfl h
    · rfl
  | ignore => simp only [runFun, emptyNet]
  | docs h => simp only [runFun, docs_nil.mpr h]
  | docsArgs h =>
    cases args with
    | nil => exact absurd rfl h
    | cons a as => simp only [runFun, docs]
  | @union a b n _ h =>
    have : a.union b = n := by
      apply BSet.ext; intro e; rw [BSet.mem_union, h]
    simp only [runFun, union, this]
  | @unionKind x y _ h =>
    cases x <;> cases y <;> simp only [runFun, union]
    exact absurd ⟨_, _, rfl, rfl⟩ h
  | unionArgs h =>
    simp only [runFun, union]
    split
    · exact absurd rfl h
    · rfl
  | read h => simp only [runFun, Eval.read, h]
  | readErr h => simp only [runFun, Eval.read, h]
  | readPanic h => simp only [runFun, Eval.read, h]
  | readArgs h =>
    simp only [runFun, Eval.read]
    split
    · exact absurd ⟨_, rfl⟩ h
    · rfl
  | filter h => simp only [runFun, filterCmd, h]
  | filterFail h =>
    rename_i c a r b
    cases e : L.filter s c (.role a b r) with
    | ok n => exact absurd e (h n)
    | err m => simp only [runFun, filterCmd, e]
    | panic => simp only [runFun, filterCmd, e]
  | filterArgs h =>
    simp only [runFun, filterCmd]
    split
    · exact absurd ⟨_, _, _, _, rfl⟩ h
    · rfl
  | @let_ c n _ s1 s2 r1 r2 rest h1 h2 h3 h4 =>
    simp only [runFun, letStore, h1]
    cases r1 <;> first | exact absurd rfl h2 | (simp only [h3]; cases r2 <;> first | exact absurd rfl h4 | rfl)
  | letPanic h => simp only [runFun, letStore, h]
  | @letPanic' c n _ s1 s2 r1 rest h1 h2 h3 =>
    simp only [runFun, letStore, h1]
    cases r1 <;> first | exact absurd rfl h2 | simp only [h3]
  | letArgs h1 h2 =>
    match args with
    | [.element name, .network n] => exact absurd ⟨_, _, rfl⟩ h1
    | [.element name, .quote q] => exact absurd ⟨_, _, rfl⟩ h2
    | [.element _, .element _] => simp only [runFun]
    | [.quote _, _] => simp only [runFun]
    | [.network _, _] => simp only [runFun]
    | [] => simp only [runFun]
    | [_] => simp only [runFun]
    | _ :: _ :: _ :: _ => simp only [runFun]

theorem let_complete (c : Element) (n : Network) (s : σ) :
    Plain L cmds .let_ [.element c, .network n] s (letStore L c n s).1 (letStore L c n s).2 := by
  unfold letStore
  rcases h1 : L.addCollection s c with ⟨r1, s1⟩
  rcases h2 : L.addEntries s1 c n with ⟨r2, s2, rest⟩
  cases r1 with
  | panic => exact .letPanic h1
  | ok u =>
    cases r2 with
    | panic => simp only [h2]; exact .letPanic' h1 (by simp) h2
    | ok u => simp only [h2]; exact .let_ h1 (by simp) h2 (by simp)
    | err m => simp only [h2]; exact .let_ h1 (by simp) h2 (by simp)
  | err m =>
    cases r2 with
    | panic => simp only [h2]; exact .letPanic' h1 (by simp) h2
    | ok u => simp only [h2]; exact .let_ h1 (by simp) h2 (by simp)
    | err m => simp only [h2]; exact .let_ h1 (by simp) h2 (by simp)

/-! ## Rules are followed -/

theorem runCall_has {name : Element} {f : CmdFun σ} {args : List Value} {s : σ} (hw : cmds.WF) (h : Has cmds name.text f) :
    runCall L cmds ⟨name, args⟩ s = runFun L cmds f args s := by
  obtain ⟨doc, h⟩ := has_get hw h
  simp only [runCall, h]

theorem unknown_sound {name : Element} {args : List Value} {s : σ} (h : Unknown cmds name.text) :
    runCall L cmds ⟨name, args⟩ s = (.err (lit "Could not find command: " ++ name.text), s) := by
  have h' : cmds.get? name.text = none := lookup_none_iff.mpr h
  unfold runCall
  rw [h']
  rfl

theorem calls_sound (hw : cmds.WF) {name : Element} {args : List Value} {s s' : σ} {r : Res Value} (h : Calls L cmds name args s r s') :
    runCall L cmds ⟨name, args⟩ s = (r, s') := by
  refine Calls.rec (motive_1 := fun v s r s' _ => evalArg L cmds v s = (r, s'))
    (motive_2 := fun name args s r s' _ => runCall L cmds ⟨name, args⟩ s = (r, s')) ?_ ?_ ?_ ?_ ?_ ?_ ?_ ?_ ?_ ?_ ?_ ?_ ?_ ?_ ?_ ?_ ?_ ?_ ?_ h
  case refine_1 => intro e s; simp only [evalArg]
  case refine_2 => intro n s; simp only [evalArg]
  case refine_3 => intro s; simp only [evalArg, runQuote, emptyNet]
  case refine_4 =>
    intro name args s r s' _ ih
    simpa only [evalArg, runQuote, runCall] using ih
  case refine_5 =>
    intro v args s h
    cases v with
    | element e => exact absurd rfl (h e)
    | quote q => simp only [evalArg, runQuote]
    | network n => simp only [evalArg, runQuote]
  case refine_6 =>
    intro name args s h
    exact unknown_sound h
  case refine_7 => intro name f args s r s' h e; rw [runCall_has hw h]; simp only [runFun, e]
  case refine_8 => intro name b args s r s' h p; rw [runCall_has hw h]; exact plain_sound p
  case refine_9 =>
    intro name x y s s1 s2 v h _ _ e1 e2
    rw [runCall_has hw h]
    simp only [runFun, e1, e2, assertEqualResult, if_true, emptyNet]
  case refine_10 =>
    intro name x y s s1 s2 v w h _ _ hne e1 e2
    rw [runCall_has hw h]
    simp only [runFun, e1, e2, assertEqualResult, if_neg hne]
  case refine_11 =>
    intro name x y s s1 r h _ hf e1
    rw [runCall_has hw h]
    cases r with
    | ok v => exact absurd rfl (hf v)
    | err m => simp only [runFun, e1]
    | panic => simp only [runFun, e1]
  case refine_12 =>
    intro name x y s s1 s2 v r h _ _ hf e1 e2
    rw [runCall_has hw h]
    cases r with
    | ok v => exact absurd rfl (hf v)
    | err m => simp only [runFun, e1, e2]
    | panic => simp only [runFun, e1, e2]
  case refine_13 =>
    intro name args s h hl
    rw [runCall_has hw h]
    match args with
    | [_, _] => exact absurd rfl hl
    | [] => simp only [runFun]
    | [_] => simp only [runFun]
    | _ :: _ :: _ :: _ => simp only [runFun]
  case refine_14 =>
    intro name q s s1 m h _ e1
    rw [runCall_has hw h]
    simp only [runFun, e1, emptyNet]
  case refine_15 =>
    intro name q s s1 v h _ e1
    rw [runCall_has hw h]
    simp only [runFun, e1]
  case refine_16 =>
    intro name q s s1 h _ e1
    rw [runCall_has hw h]
    simp only [runFun, e1]
  case refine_17 =>
    intro name args s h hl
    rw [runCall_has hw h]
    match args with
    | [.quote q] => exact absurd ⟨q, rfl⟩ hl
    | [.element _] => simp only [runFun]
    | [.network _] => simp only [runFun]
    | [] => simp only [runFun]
    | _ :: _ :: _ => simp only [runFun]
  case refine_18 =>
    intro name c q n s s1 s2 r h _ p e1
    rw [runCall_has hw h]
    have e2 := plain_sound p
    simp only [runFun] at e2
    simp only [runFun, e1, e2]
  case refine_19 =>
    intro name c q s s1 r h _ hn e1
    rw [runCall_has hw h]
    match r with
    | .ok (.network n) => exact absurd rfl (hn n)
    | .ok (.element _) => simp only [runFun, e1]
    | .ok (.quote _) => simp only [runFun, e1]
    | .err _ => simp only [runFun, e1]
    | .panic => simp only [runFun, e1]

/-! ## Nothing else happens -/

mutual
theorem arg_complete (v : Value) : ∀ s, Arg L cmds v s (evalArg L cmds v s).1 (evalArg L cmds v s).2 := by
  intro s
  match v with
  | .quote q => rw [evalArg]; exact quote_complete q s
  | .element e => simp only [evalArg]; exact .element e s
  | .network n => simp only [evalArg]; exact .network n s

theorem quote_complete (q : List Value) : ∀ s, Arg L cmds (.quote q) s (runQuote L cmds q s).1 (runQuote L cmds q s).2 := by
  intro s
  match q with
  | [] => simp only [runQuote]; exact .empty s
  | .element name :: args =>
    refine .call ?_
    simp only [runQuote]
    cases h : cmds.get? name.text with
    | none => exact .unknown (lookup_none_iff.mp h)
    | some c => exact fun_complete args c.fn name (get_has h) s
  | .quote _ :: _ => simp only [runQuote]; exact .noCall (by intro e h; cases h)
  | .network _ :: _ => simp only [runQuote]; exact .noCall (by intro e h; cases h)

theorem fun_complete (args : List Value) : ∀ f (name : Element), Has cmds name.text f → ∀ s,
    Calls L cmds name args s (runFun L cmds f args s).1 (runFun L cmds f args s).2 := by
  intro f name hn s
  match f with
  | .host f => simp only [runFun]; exact .host hn rfl
  | .builtin .docs =>
    refine .plain hn ?_
    simp only [runFun]
    cases args with
    | nil => exact .docs (docs_nil.mp rfl)
    | cons a as => exact .docsArgs (by simp)
  | .builtin .union =>
    refine .plain hn ?_
    simp only [runFun]
    match args with
    | [.network a, .network b] => exact .union (fun e => BSet.mem_union)
    | [.network _, .element _] => exact .unionKind (by rintro ⟨_, _, h, h'⟩; cases h')
    | [.network _, .quote _] => exact .unionKind (by rintro ⟨_, _, h, h'⟩; cases h')
    | [.element _, _] => exact .unionKind (by rintro ⟨_, _, h, h'⟩; cases h)
    | [.quote _, _] => exact .unionKind (by rintro ⟨_, _, h, h'⟩; cases h)
    | [] => exact .unionArgs (by simp)
    | [_] => exact .unionArgs (by simp)
    | _ :: _ :: _ :: _ => exact .unionArgs (by simp)
  | .builtin .id =>
    refine .plain hn ?_
    simp only [runFun]
    match args with
    | [v] => exact .id v s
    | [] => exact .idArgs (by simp)
    | _ :: _ :: _ => exact .idArgs (by simp)
  | .builtin .ignore => exact .plain hn (by simp only [runFun]; exact .ignore args s)
  | .builtin .read =>
    refine .plain hn ?_
    simp only [runFun, Eval.read]
    split
    · rename_i c
      cases h : L.entries s c with
      | ok n => exact .read h
      | err m => exact .readErr h
      | panic => exact .readPanic h
    · rename_i h; exact .readArgs (by rintro ⟨c, rfl⟩; exact h c rfl)
  | .builtin .filter =>
    refine .plain hn ?_
    simp only [runFun, filterCmd]
    split
    · rename_i c a r b
      cases h : L.filter s c (.role a b r) with
      | ok n => exact .filter h
      | err m => exact .filterFail (by rw [h]; intro n h'; cases h')
      | panic => exact .filterFail (by rw [h]; intro n h'; cases h')
    · rename_i h; exact .filterArgs (by rintro ⟨c, a, r, b, rfl⟩; exact h c a r b rfl)
  | .builtin .assertEqual =>
    match args with
    | [left, right] =>
      simp only [runFun]
      have h1 := arg_complete left s
      rcases e1 : evalArg L cmds left s with ⟨a, s1⟩
      rw [e1] at h1
      cases a with
      | ok l =>
        have h2 := arg_complete right s1
        rcases e2 : evalArg L cmds right s1 with ⟨b, s2⟩
        rw [e2] at h2
        simp only [e2]
        cases b with
        | ok r =>
          simp only [assertEqualResult]
          split
          · rename_i e; subst e; exact .equal hn h1 h2
          · rename_i e; exact .differ hn h1 h2 e
        | err m => exact .equalRight hn h1 h2 (by intro v h; cases h)
        | panic => exact .equalRight hn h1 h2 (by intro v h; cases h)
      | err m => exact .equalLeft hn h1 (by intro v h; cases h)
      | panic => exact .equalLeft hn h1 (by intro v h; cases h)
    | [] => simp only [runFun]; exact .equalArgs hn (by simp)
    | [_] => simp only [runFun]; exact .equalArgs hn (by simp)
    | _ :: _ :: _ :: _ => simp only [runFun]; exact .equalArgs hn (by simp)
  | .builtin .assertFail =>
    match args with
    | [.quote q] =>
      simp only [runFun]
      have h1 := arg_complete (.quote q) s
      rcases e1 : evalArg L cmds (.quote q) s with ⟨a, s1⟩
      rw [e1] at h1
      cases a with
      | ok v => exact .notFailed hn h1
      | err m => exact .failed hn h1
      | panic => exact .failPanic hn h1
    | [.element _] => simp only [runFun]; exact .failArgs hn (by rintro ⟨q, h⟩; cases h)
    | [.network _] => simp only [runFun]; exact .failArgs hn (by rintro ⟨q, h⟩; cases h)
    | [] => simp only [runFun]; exact .failArgs hn (by rintro ⟨q, h⟩; cases h)
    | _ :: _ :: _ => simp only [runFun]; exact .failArgs hn (by rintro ⟨q, h⟩; cases h)
  | .builtin .let_ =>
    match args with
    | [.element c, .network n] => simp only [runFun]; exact .plain hn (let_complete c n s)
    | [.element c, .quote q] =>
      simp only [runFun]
      have h1 := arg_complete (.quote q) s
      rcases e1 : evalArg L cmds (.quote q) s with ⟨a, s1⟩
      rw [e1] at h1
      match a with
      | .ok (.network n) => exact .letQuote hn h1 (let_complete c n s1)
      | .ok (.element _) => exact .letNoNetwork hn h1 (by intro n h; cases h)
      | .ok (.quote _) => exact .letNoNetwork hn h1 (by intro n h; cases h)
      | .err m => exact .letNoNetwork hn h1 (by intro n h; cases h)
      | .panic => exact .letNoNetwork hn h1 (by intro n h; cases h)
    | [.element _, .element _] => simp only [runFun]; exact .plain hn (.letArgs (by rintro ⟨_, _, h⟩; cases h) (by rintro ⟨_, _, h⟩; cases h))
    | [.quote _, _] => simp only [runFun]; exact .plain hn (.letArgs (by rintro ⟨_, _, h⟩; cases h) (by rintro ⟨_, _, h⟩; cases h))
    | [.network _, _] => simp only [runFun]; exact .plain hn (.letArgs (by rintro ⟨_, _, h⟩; cases h) (by rintro ⟨_, _, h⟩; cases h))
    | [] => simp only [runFun]; exact .plain hn (.letArgs (by rintro ⟨_, _, h⟩; cases h) (by rintro ⟨_, _, h⟩; cases h))
    | [_] => simp only [runFun]; exact .plain hn (.letArgs (by rintro ⟨_, _, h⟩; cases h) (by rintro ⟨_, _, h⟩; cases h))
    | _ :: _ :: _ :: _ => simp only [runFun]; exact .plain hn (.letArgs (by rintro ⟨_, _, h⟩; cases h) (by rintro ⟨_, _, h⟩; cases h))
end

theorem calls_complete (c : Call) (s : σ) : Calls L cmds c.name c.args s (runCall L cmds c s).1 (runCall L cmds c s).2 := by
  unfold runCall
  cases h : cmds.get? c.name.text with
  | none => exact .unknown (lookup_none_iff.mp h)
  | some cmd => exact fun_complete c.args cmd.fn c.name (get_has h) s

theorem runs_complete : ∀ (calls : List Call) (s : σ), Runs L cmds calls s (runCalls L cmds calls s).1 (runCalls L cmds calls s).2
  | [], s => .nil s
  | [c], s => by rw [runCalls_single]; exact .last (calls_complete c s)
  | c :: c' :: cs, s => by
    have hc := calls_complete (L := L) (cmds := cmds) c s
    have e : runCalls L cmds (c :: c' :: cs) s =
        match runCall L cmds c s with
        | (.ok _, s1) => runCalls L cmds (c' :: cs) s1
        | (.err m, s1) => (.err m, s1)
        | (.panic, s1) => (.panic, s1) := rfl
    rw [e]
    rcases h : runCall L cmds c s with ⟨r, s1⟩
    rw [h] at hc
    cases r with
    | ok v => exact .more hc (runs_complete (c' :: cs) s1)
    | err m => exact .stop hc (by intro v h; cases h)
    | panic => exact .stop hc (by intro v h; cases h)

theorem runs_sound (hw : cmds.WF) {calls : List Call} {s s' : σ} {r : Res Value} (h : Runs L cmds calls s r s') :
    runCalls L cmds calls s = (r, s') := by
  induction h with
  | nil => rfl
  | last h => rw [runCalls_single]; exact calls_sound hw h
  | @stop c cs s r s' h hf =>
    have e := calls_sound hw h
    simp only [runCalls, runCallsLoop]
    rw [show runCall L cmds c s = (r, s') from e]
    cases r with
    | ok v => exact absurd rfl (hf v)
    | err m => rfl
    | panic => rfl
  | @more c c' cs s v s1 r s2 h _ ih =>
    have e := calls_sound hw h
    rw [← ih]
    simp only [runCalls, runCallsLoop]
    rw [show runCall L cmds c s = (.ok v, s1) from e]

end Eval
end Verif
