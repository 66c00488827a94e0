import Verif.Spec.Replace
import Verif.Proofs.Semantics
import Verif.Props.Semantics
import Verif.Props.Effects
import Verif.Props.Commands
/-!
# C93: quoted calls can be replaced by equivalent calls and by their values
-/
namespace Verif
namespace Props
open Spec Eval

section
variable {σ : Type u} {L : LigOps σ} {cmds : Commands σ} {I : σ → Prop} {q q' : List Value}

theorem runQuote_call (f : Element) (args : List Value) (s : σ) : runQuote L cmds (.element f :: args) s = runCall L cmds ⟨f, args⟩ s := by
  rw [runQuote, runCall]

theorem runQuote_inv (hI : ∀ c s, I s → I (runCall L cmds c s).2) : ∀ (v : List Value) (s : σ), I s → I (runQuote L cmds v s).2
  | [], s, h => by rw [runQuote]; exact h
  | .element name :: args, s, h => by
    have := hI ⟨name, args⟩ s h
    rw [runCall] at this
    rw [runQuote]
    exact this
  | .quote _ :: _, s, h => by rw [runQuote]; exact h
  | .network _ :: _, s, h => by rw [runQuote]; exact h

mutual
theorem swapped_run_in {K : List Value → Prop} (hK : ∀ name args v, K (.element name :: args) → .quote v ∈ args → K v) (hw : cmds.WF)
    (hI : ∀ v s, K v → I s → I (runQuote L cmds v s).2)
    (hq : ∀ s, I s → runQuote L cmds q s = runQuote L cmds q' s) {v v' : List Value} (h : Swapped cmds q q' v v') (hk : K v) (s : σ) (hs : I s) :
    runQuote L cmds v s = runQuote L cmds v' s := by
  cases h with
  | same => rfl
  | here => exact hq s hs
  | @inside name args _ h =>
    have := swapped_args_in hK hw hI hq h (fun v => hK name args v hk) s hs
    simp only [runCall] at this
    rw [runQuote, runQuote]
    exact this
theorem swapped_args_in {K : List Value → Prop} (hK : ∀ name args v, K (.element name :: args) → .quote v ∈ args → K v) (hw : cmds.WF)
    (hI : ∀ v s, K v → I s → I (runQuote L cmds v s).2)
    (hq : ∀ s, I s → runQuote L cmds q s = runQuote L cmds q' s) {name : Element} {args args' : List Value} (h : SwappedArgs cmds q q' name args args')
    (hk : ∀ v, .quote v ∈ args → K v) (s : σ) (hs : I s) : runCall L cmds ⟨name, args⟩ s = runCall L cmds ⟨name, args'⟩ s := by
  cases h with
  | same => rfl
  | letQuote hn h =>
    have := swapped_run_in hK hw hI hq h (hk _ (by simp)) s hs
    rw [runCall_has hw hn, runCall_has hw hn]
    simp only [runFun, evalArg, this]
  | left hn h =>
    have := swapped_run_in hK hw hI hq h (hk _ (by simp)) s hs
    rw [runCall_has hw hn, runCall_has hw hn]
    simp only [runFun, evalArg, this]
  | @right _ x v v' hn h =>
    rw [runCall_has hw hn, runCall_has hw hn]
    cases x with
    | element e => simp only [runFun, evalArg, swapped_run_in hK hw hI hq h (hk _ (by simp)) s hs]
    | network n => simp only [runFun, evalArg, swapped_run_in hK hw hI hq h (hk _ (by simp)) s hs]
    | quote p =>
      have := swapped_run_in hK hw hI hq h (hk _ (by simp)) _ (hI p s (hk _ (by simp)) hs)
      simp only [runFun, evalArg]
      generalize hp : runQuote L cmds p s = r at *
      obtain ⟨r, s1⟩ := r
      cases r with
      | ok l => simp only [this]
      | err m => rfl
      | panic => rfl
  | @both _ v v' w w' hn h h' =>
    rw [runCall_has hw hn, runCall_has hw hn]
    have h1 := swapped_run_in hK hw hI hq h (hk _ (by simp)) s hs
    have := swapped_run_in hK hw hI hq h' (hk _ (by simp)) _ (hI v s (hk _ (by simp)) hs)
    simp only [runFun, evalArg, ← h1]
    generalize hp : runQuote L cmds v s = r at *
    obtain ⟨r, s1⟩ := r
    cases r with
    | ok l => simp only [this]
    | err m => rfl
    | panic => rfl
  | fail hn h =>
    have := swapped_run_in hK hw hI hq h (hk _ (by simp)) s hs
    rw [runCall_has hw hn, runCall_has hw hn]
    simp only [runFun, evalArg, this]
end

theorem swapped_loop_in {K : List Value → Prop} (hK : ∀ name args v, K (.element name :: args) → .quote v ∈ args → K v) (hw : cmds.WF)
    (hI : ∀ v s, K v → I s → I (runQuote L cmds v s).2)
    (hq : ∀ s, I s → runQuote L cmds q s = runQuote L cmds q' s) {cs cs' : List Call} (h : SwappedCalls cmds q q' cs cs') :
    (∀ c ∈ cs, K (.element c.name :: c.args)) → ∀ v s, I s → runCallsLoop L cmds cs v s = runCallsLoop L cmds cs' v s := by
  induction h with
  | nil => intro _ v s _; rfl
  | @cons c c' cs cs' h _ ih =>
    intro hk v s hs
    have hc := hk c (List.mem_cons_self ..)
    have h1 := swapped_run_in hK hw hI hq h hc s hs
    have h2 := hI _ s hc hs
    rw [runQuote_call] at h2
    rw [runQuote, runQuote] at h1
    have h1 : runCall L cmds c s = runCall L cmds c' s := h1
    have h2 : I (runCall L cmds c s).2 := h2
    rw [runCallsLoop, runCallsLoop, ← h1]
    generalize runCall L cmds c s = r at *
    obtain ⟨r, s1⟩ := r
    cases r with
    | ok l => exact ih (fun c hc => hk c (List.mem_cons_of_mem _ hc)) l s1 h2
    | err m => rfl
    | panic => rfl

theorem swapped_loop (hw : cmds.WF) (hI : ∀ c s, I s → I (runCall L cmds c s).2)
    (hq : ∀ s, I s → runQuote L cmds q s = runQuote L cmds q' s) {cs cs' : List Call} (h : SwappedCalls cmds q q' cs cs') :
    ∀ v s, I s → runCallsLoop L cmds cs v s = runCallsLoop L cmds cs' v s :=
  swapped_loop_in (K := fun _ => True) (fun _ _ _ _ _ => trivial) hw (fun v s _ h => runQuote_inv hI v s h) hq h fun _ _ => trivial

/-- C93, any store and command table: if two quotes have the same outcome and leave the same state from every state, they can replace each other
wherever quotes are run, at any depth, and a whole call can be replaced by the call of an equivalent quote; the script's outcome and the store it
leaves are the same.  `I` may be any set of states that calls do not leave, such as the reachable ones. -/
theorem C93_replace {σ : Type u} (L : LigOps σ) (cmds : Commands σ) (hw : cmds.WF) (I : σ → Prop) (hI : ∀ c s, I s → I (runCall L cmds c s).2)
    (q q' : List Value) (hq : ∀ s, I s → runQuote L cmds q s = runQuote L cmds q' s)
    (calls calls' : List Call) (h : SwappedCalls cmds q q' calls calls') (s : σ) (hs : I s) :
    runCalls L cmds calls s = runCalls L cmds calls' s := swapped_loop hw hI hq h _ s hs

theorem loop_split {pre mid mid' : List Call} (s : σ)
    (h : ∀ v s0, runCalls L cmds pre s = (.ok v, s0) → runCallsLoop L cmds mid v s0 = runCallsLoop L cmds mid' v s0) :
    runCalls L cmds (pre ++ mid) s = runCalls L cmds (pre ++ mid') s := by
  simp only [runCalls, runCallsLoop_append] at h ⊢
  generalize runCallsLoop L cmds pre emptyNet s = r at *
  obtain ⟨r, s1⟩ := r
  cases r with
  | ok l => exact h l s1 rfl
  | err m => rfl
  | panic => rfl

/-- C93: `let c (f …)` does what `f …` and then `let c n` do, where `n` is the network `f …` returns there. -/
theorem C93_let_value (L : LigOps σ) (cmds : Commands σ) (hw : cmds.WF) (name : Element) (hn : Has cmds name.text (.builtin .let_))
    (pre post : List Call) (s : σ) (c f : Element) (args : List Value) (n : Network)
    (hv : ∀ v s0, runCalls L cmds pre s = (.ok v, s0) → (runCalls L cmds [⟨f, args⟩] s0).1 = .ok (.network n)) :
    runCalls L cmds (pre ++ ⟨name, [.element c, .quote (.element f :: args)]⟩ :: post) s =
      runCalls L cmds (pre ++ ⟨f, args⟩ :: ⟨name, [.element c, .network n]⟩ :: post) s := by
  refine loop_split s fun v s0 h => ?_
  have hv := hv v s0 h
  simp only [runCalls, runCallsLoop] at hv ⊢
  rw [runCall_has hw hn]
  simp only [runCall_has hw hn, runFun, evalArg, runQuote_call]
  generalize runCall L cmds ⟨f, args⟩ s0 = r at *
  obtain ⟨r, s1⟩ := r
  cases r with
  | ok l =>
    simp only [Res.ok.injEq] at hv
    subst hv
    rfl
  | err m => cases hv
  | panic => cases hv

/-- C93: `assert-equal (f …) y` does what `f …` and then `assert-equal v y` do, where `v` is the value `f …` returns there, if `v` is not a quote. -/
theorem C93_left_value (L : LigOps σ) (cmds : Commands σ) (hw : cmds.WF) (name : Element) (hn : Has cmds name.text (.builtin .assertEqual))
    (pre post : List Call) (s : σ) (f : Element) (args : List Value) (v y : Value) (hq : ∀ q, v ≠ .quote q)
    (hv : ∀ u s0, runCalls L cmds pre s = (.ok u, s0) → (runCalls L cmds [⟨f, args⟩] s0).1 = .ok v) :
    runCalls L cmds (pre ++ ⟨name, [.quote (.element f :: args), y]⟩ :: post) s =
      runCalls L cmds (pre ++ ⟨f, args⟩ :: ⟨name, [v, y]⟩ :: post) s := by
  refine loop_split s fun u s0 h => ?_
  have hv := hv u s0 h
  simp only [runCalls, runCallsLoop] at hv ⊢
  simp only [runCall_has hw hn, runFun, evalArg, runQuote_call]
  generalize runCall L cmds ⟨f, args⟩ s0 = r at *
  obtain ⟨r, s1⟩ := r
  cases r with
  | ok l =>
    simp only [Res.ok.injEq] at hv
    subst hv
    cases l with
    | quote q => exact absurd rfl (hq q)
    | element e => rfl
    | network n => rfl
  | err m => cases hv
  | panic => cases hv

/-- C93: likewise for the second argument, if the first is not a quote. -/
theorem C93_right_value (L : LigOps σ) (cmds : Commands σ) (hw : cmds.WF) (name : Element) (hn : Has cmds name.text (.builtin .assertEqual))
    (pre post : List Call) (s : σ) (f : Element) (args : List Value) (x v : Value) (hx : ∀ q, x ≠ .quote q) (hq : ∀ q, v ≠ .quote q)
    (hv : ∀ u s0, runCalls L cmds pre s = (.ok u, s0) → (runCalls L cmds [⟨f, args⟩] s0).1 = .ok v) :
    runCalls L cmds (pre ++ ⟨name, [x, .quote (.element f :: args)]⟩ :: post) s =
      runCalls L cmds (pre ++ ⟨f, args⟩ :: ⟨name, [x, v]⟩ :: post) s := by
  refine loop_split s fun u s0 h => ?_
  have hv := hv u s0 h
  simp only [runCalls, runCallsLoop] at hv ⊢
  cases x with
  | quote q => exact absurd rfl (hx q)
  | element e =>
    simp only [runCall_has hw hn, runFun, evalArg, runQuote_call]
    generalize runCall L cmds ⟨f, args⟩ s0 = r at *
    obtain ⟨r, s1⟩ := r
    cases r with
    | ok l =>
      simp only [Res.ok.injEq] at hv
      subst hv
      cases l with
      | quote q => exact absurd rfl (hq q)
      | element e => rfl
      | network n => rfl
    | err m => cases hv
    | panic => cases hv
  | network n =>
    simp only [runCall_has hw hn, runFun, evalArg, runQuote_call]
    generalize runCall L cmds ⟨f, args⟩ s0 = r at *
    obtain ⟨r, s1⟩ := r
    cases r with
    | ok l =>
      simp only [Res.ok.injEq] at hv
      subst hv
      cases l with
      | quote q => exact absurd rfl (hq q)
      | element e => rfl
      | network n => rfl
    | err m => cases hv
    | panic => cases hv

end

/-- C93, any store: no other command runs a quote given to it as an argument: `id` hands it back, `ignore` drops it, `docs` refuses it, and `union`,
`read` and `filter` panic, whatever the quote would return; the store is left as it is. -/
theorem C93_not_run {σ : Type u} (L : LigOps σ) (q : List Value) (y : Value) (c a b : Element) (s : σ) :
    runCalls L common [call "id" [.quote q]] s = (.ok (.quote q), s) ∧
    runCalls L common [call "ignore" [.quote q, y]] s = (.ok (.network ∅), s) ∧
    (runCalls L common [call "docs" [.quote q]] s = (.err (lit "docs takes no arguments."), s)) ∧
    runCalls L common [call "union" [.quote q, y]] s = (.panic, s) ∧ runCalls L common [call "union" [y, .quote q]] s = (.panic, s) ∧
    runCalls L common [call "read" [.quote q]] s = (.panic, s) ∧
    runCalls L common [call "filter" [.quote q, .element a, .element b, .element c]] s = (.panic, s) ∧
    runCalls L common [call "filter" [.element c, .quote q, .element a, .element b]] s = (.panic, s) ∧
    runCalls L common [call "let" [.quote q, y]] s = (.err (lit "Invalid call to let."), s) := by
  refine ⟨rfl, rfl, rfl, rfl, ?_, rfl, rfl, rfl, rfl⟩
  cases y <;> rfl

/-- C93, in-memory store: from any state in which the collection exists, `read c` and `filter c ? ? ?` replace each other in every script. -/
theorem C93_read_filter (c : Element) (calls calls' : List Call) (s : Mem) (hs : Listed Mem.ops s c.text)
    (h : SwappedCalls (common (σ := Mem)) [.element (el "read"), .element c]
      [.element (el "filter"), .element c, .element (el "?"), .element (el "?"), .element (el "?")] calls calls') :
    runCalls Graph.memOps common calls s = runCalls Graph.memOps common calls' s := by
  refine C93_replace Graph.memOps common common_wf (fun t => Listed Mem.ops t c.text) (fun k t ht => ?_) _ _ (fun t ht => ?_) _ _ h s hs
  · have := (calls_keep mem_refines.inv (fun t => Listed Mem.ops t c.text) [k]
      (fun n _ t hi hp => listed_addCollection mem_refines hi _ c.text trivial hp)
      (fun n _ t ts hi hp => listed_addTriples mem_refines hi _ c.text ts trivial hp) t trivial ht).2
    have e : (runCalls (Graph.ops Mem.ops) common [k] t).2 = (runCall Graph.memOps common k t).2 := by
      rw [runCalls, runCallsLoop]
      show _ = (runCall (Graph.ops Mem.ops) common k t).2
      generalize runCall (Graph.ops Mem.ops) common k t = r
      obtain ⟨r, s1⟩ := r
      cases r <;> rfl
    rwa [e] at this
  · have hv : ¬ IsVar (el "?").text := by rintro ⟨c, cs, h⟩; revert h; simp [lit]
    obtain ⟨all, sel, h1, h2, h3⟩ := C36_filter_agrees_with_entries t c (.role (el "?") (el "?") (el "?")) ⟨hv, hv, hv⟩ ht
    have e : sel = all := BSet.ext fun x => by
      rw [h3]
      exact ⟨fun h => h.1, fun h => ⟨h, .inl rfl, .inl rfl, .inl rfl⟩⟩
    subst e
    have e1 : runQuote Graph.memOps common [.element (el "read"), .element c] t = (read Graph.memOps [.element c] t, t) := rfl
    have e2 : runQuote Graph.memOps common [.element (el "filter"), .element c, .element (el "?"), .element (el "?"), .element (el "?")] t =
        (filterCmd Graph.memOps [.element c, .element (el "?"), .element (el "?"), .element (el "?")] t, t) := rfl
    rw [e1, e2]
    simp only [Eval.read, filterCmd, h1, h2]

/-! ## Cases -/

/-- `C93_read_filter` in a script of several calls, one of them in a quote. -/
example : runCalls Graph.memOps common [call "let" [.element (el "U"), .quote [.element (el "read"), .element (el "T")]], call "read" [.element (el "T")]]
      (runOps Mem.ops Mem.new [.addCollection (lit "T")]).2 =
    runCalls Graph.memOps common [call "let" [.element (el "U"), .quote [.element (el "filter"), .element (el "T"), .element (el "?"), .element (el "?"),
      .element (el "?")]], call "filter" [.element (el "T"), .element (el "?"), .element (el "?"), .element (el "?")]]
      (runOps Mem.ops Mem.new [.addCollection (lit "T")]).2 := by
  refine C93_read_filter (el "T") _ _ _ ⟨_, rfl, by decide +kernel⟩ (.cons ?_ (.cons .here .nil))
  exact .inside (.letQuote (get_has (cmds := common) (c := ⟨_, _⟩) rfl) .here)

def netA : Network := BSet.ofList [.role (el "a") (el "b") (el "r")]
def netB : Network := BSet.ofList [.ext (el "c") (el "D")]
def qAB : List Value := [.element (el "union"), .network netA, .network netB]
def qBA : List Value := [.element (el "union"), .network netB, .network netA]

/-- The names of the commands that run quotes. -/
theorem has_common {σ : Type u} : (b : Builtin) → Has (common (σ := σ)) (match b with
    | .assertEqual => lit "assert-equal" | .assertFail => lit "assert-fail" | .let_ => lit "let" | .ignore => lit "ignore" | .read => lit "read"
    | .id => lit "id" | .docs => lit "docs" | .union => lit "union" | .filter => lit "filter") (.builtin b) := by
  intro b
  cases b <;> exact get_has (cmds := common) (c := ⟨_, _⟩) rfl

/-- Two quotes that mean the same, from every state of every store. -/
theorem qAB_qBA {σ : Type u} (L : LigOps σ) (s : σ) : runQuote L common qAB s = runQuote L common qBA s := by
  show (Res.ok (Value.network (netA.union netB)), s) = (Res.ok (Value.network (netB.union netA)), s)
  rw [show netA.union netB = netB.union netA by decide +kernel]

/-- They can replace each other two quotes deep. -/
example (s : Heed) :
    runCalls (Graph.ops Heed.ops) common [call "assert-fail" [.quote [.element (el "let"), .element (el "T"), .quote qAB]], call "union" [.network netA, .network netB]] s =
    runCalls (Graph.ops Heed.ops) common [call "assert-fail" [.quote [.element (el "let"), .element (el "T"), .quote qBA]], call "union" [.network netB, .network netA]] s :=
  C93_replace _ _ common_wf (fun _ => True) (fun _ _ _ => trivial) qAB qBA (fun s _ => qAB_qBA _ s) _ _ (by
    refine .cons ?_ (.cons .here .nil)
    refine .inside (.fail (has_common .assertFail) (.inside ?_))
    exact .letQuote (has_common .let_) .here) s trivial

/-- But not where quotes are not run: `id` shows which one it was given. -/
theorem C93_not_in_id : ∃ q q' : List Value, (∀ s, runQuote Graph.memOps common q s = runQuote Graph.memOps common q' s) ∧
    ∀ s, runCalls Graph.memOps common [call "id" [.quote q]] s ≠ runCalls Graph.memOps common [call "id" [.quote q']] s := by
  refine ⟨qAB, qBA, qAB_qBA _, fun s h => ?_⟩
  rw [(C93_not_run _ _ (.element (el "x")) (el "x") (el "x") (el "x") s).1, (C93_not_run _ _ (.element (el "x")) (el "x") (el "x") (el "x") s).1] at h
  injection h with h _
  exact absurd h (by decide +kernel)

/-- `let T (read S)` is `read S` and then `let T` with the entries of `S`. -/
example : runCalls Graph.memOps common ([call "let" [.element (el "S"), .network netA]] ++
      call "let" [.element (el "T"), .quote [.element (el "read"), .element (el "S")]] :: [call "read" [.element (el "T")]]) Mem.new =
    runCalls Graph.memOps common ([call "let" [.element (el "S"), .network netA]] ++
      call "read" [.element (el "S")] :: call "let" [.element (el "T"), .network netA] :: [call "read" [.element (el "T")]]) Mem.new := by
  refine C93_let_value _ _ common_wf (el "let") (has_common .let_) _ _ _ _ (el "read") _ netA fun v s0 h => ?_
  have : s0 = (runCalls Graph.memOps common [call "let" [.element (el "S"), .network netA]] Mem.new).2 := by rw [h]
  subst this
  decide +kernel

/-- `assert-equal (union A B) (read T)`: the first quote, then the second, can be moved out. -/
example (s : Mem) : runCalls Graph.memOps common ([] ++ call "assert-equal" [.quote qAB, .quote [.element (el "read"), .element (el "T")]] :: []) s =
    runCalls Graph.memOps common ([] ++ ⟨el "union", [.network netA, .network netB]⟩ ::
      call "assert-equal" [.network (netA.union netB), .quote [.element (el "read"), .element (el "T")]] :: []) s :=
  C93_left_value _ _ common_wf (el "assert-equal") (has_common .assertEqual) [] [] s (el "union") _ (.network (netA.union netB)) _ nofun fun _ _ _ => rfl

/-- A value that is itself a quote cannot take the place of the call that returns it: it would be run once more. -/
theorem C93_quote_value : ∃ (f : Element) (args : List Value) (v y : Value) (s : Mem),
    (runCalls Graph.memOps common [⟨f, args⟩] s).1 = .ok v ∧
    (runCalls Graph.memOps common [call "assert-equal" [.quote (.element f :: args), y]] s).1 ≠
      (runCalls Graph.memOps common [⟨f, args⟩, call "assert-equal" [v, y]] s).1 :=
  ⟨el "id", [.quote qAB], .quote qAB, .network (netA.union netB), Mem.new, rfl, by decide +kernel⟩

end Props
end Verif
