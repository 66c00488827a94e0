import Verif.Spec.Again
import Verif.Proofs.Steps
/-!
# The shape of the programs scripts stand for
-/
namespace Verif
namespace Steps
open Spec Eval

/-- What the programs of scripts look like: they read collections in `R`, stop when the store panics, and write collections in `W` by
`let` only. -/
inductive Tame (R W : Str → Prop) : Prog → Prop where
  | ret (r : Res Value) : Tame R W (.ret r)
  | entries {c : Element} {k : Answer → Prog} : R c.text → k (.network .panic) = .ret .panic → (∀ r, Tame R W (k (.network r))) →
      Tame R W (.ask (.entries c) k)
  | filter {c : Element} {p : Entry} {k : Answer → Prog} : R c.text → k (.network .panic) = .ret .panic → (∀ r, Tame R W (k (.network r))) →
      Tame R W (.ask (.filter c p) k)
  | lets {c : Element} {n : Network} {f : Res Value → Prog} : W c.text → f .panic = .ret .panic → Tame R W (f (.ok emptyNet)) →
      Tame R W ((letP c n).andThen f)

theorem andThen_assoc (f g : Res Value → Prog) (p : Prog) : (p.andThen f).andThen g = p.andThen (fun r => (f r).andThen g) := by
  induction p with
  | ret r => rfl
  | ask q k ih => simp only [Prog.andThen]; congr 1; funext a; exact ih a

theorem andThen_ret (p : Prog) : p.andThen .ret = p := by
  induction p with
  | ret r => rfl
  | ask q k ih => simp only [Prog.andThen]; congr 1; funext a; exact ih a

variable {R W : Str → Prop}

theorem tame_andThen {f : Res Value → Prog} (h0 : f .panic = .ret .panic) (hf : ∀ r, Tame R W (f r)) {p : Prog} (h : Tame R W p) :
    Tame R W (p.andThen f) := by
  induction h with
  | ret r => exact hf r
  | entries h1 h2 _ ih => exact .entries h1 (by rw [h2]; exact h0) ih
  | filter h1 h2 _ ih => exact .filter h1 (by rw [h2]; exact h0) ih
  | lets h1 h2 _ ih => rw [andThen_assoc]; exact .lets h1 (by rw [h2]; exact h0) ih

theorem Tame.mono {R' W' : Str → Prop} (hR : ∀ x, R x → R' x) (hW : ∀ x, W x → W' x) {p : Prog} (h : Tame R W p) : Tame R' W' p := by
  induction h with
  | ret r => exact .ret r
  | entries h1 h2 _ ih => exact .entries (hR _ h1) h2 ih
  | filter h1 h2 _ ih => exact .filter (hR _ h1) h2 ih
  | lets h1 h2 _ ih => exact .lets (hW _ h1) h2 ih

theorem tame_letP {name : Element} (h : W name.text) (n : Network) : Tame R W (letP name n) := by
  rw [← andThen_ret (letP name n)]
  exact .lets h rfl (.ret _)

theorem tame_readP {args : List Value} (h : ∀ n rest, args = .element n :: rest → R n.text) : Tame R W (readP args) := by
  unfold readP
  split
  · refine .entries (h _ _ rfl) rfl fun r => ?_
    cases r <;> exact .ret _
  · exact .ret _

theorem tame_filterP {args : List Value} (h : ∀ n rest, args = .element n :: rest → R n.text) : Tame R W (filterP args) := by
  unfold filterP
  split
  · refine .filter (h _ _ rfl) rfl fun r => ?_
    cases r <;> exact .ret _
  · exact .ret _

mutual
theorem tame_evalArgP (v : Value) (hr : ∀ n, ReadsIn n v → R n.text) (hw : ∀ n, LetsIn n v → W n.text) : Tame R W (evalArgP v) := by
  match v with
  | .quote q => rw [evalArgP]; exact tame_runQuoteP q hr hw
  | .element e => simp only [evalArgP]; exact .ret _
  | .network n => simp only [evalArgP]; exact .ret _

theorem tame_runQuoteP (q : List Value) (hr : ∀ n, ReadsIn n (.quote q) → R n.text) (hw : ∀ n, LetsIn n (.quote q) → W n.text) :
    Tame R W (runQuoteP q) := by
  match q with
  | [] => simp only [runQuoteP]; exact .ret _
  | .element name :: args =>
    simp only [runQuoteP]
    rcases common_get_both (σ := Unit) (τ := Unit) name.text with ⟨b, d, h1, h2⟩ | ⟨h1, h2⟩
    · rw [show table.get? name.text = _ from h1]
      have hbn := builtin_name h1
      refine tame_runFunP args b (fun n hb rest e => hr n ?_) (fun n hb rest e => hw n ?_) (fun n hn => hr n ?_) (fun n hn => hw n ?_)
      · subst e
        simp only [ReadsIn]
        exact .inl ⟨name, rest, rfl, hb.imp hbn.2.1 hbn.2.2⟩
      · subst e
        simp only [LetsIn]
        exact .inl ⟨name, rest, rfl, hbn.1 hb⟩
      · simp only [ReadsIn, ReadsInList]; exact .inr (.inr hn)
      · simp only [LetsIn, LetsInList]; exact .inr (.inr hn)
    · rw [show table.get? name.text = _ from h1]; exact .ret _
  | .quote _ :: _ => simp only [runQuoteP]; exact .ret _
  | .network _ :: _ => simp only [runQuoteP]; exact .ret _

theorem tame_runFunP (args : List Value) : ∀ b : Builtin,
    (∀ n : Element, b = .read ∨ b = .filter → ∀ rest, args = .element n :: rest → R n.text) →
    (∀ n : Element, b = .let_ → ∀ rest, args = .element n :: rest → W n.text) →
    (∀ n, ReadsInList n args → R n.text) → (∀ n, LetsInList n args → W n.text) → Tame R W (runFunP (.builtin b) args) := by
  intro b hb hb' hr hw
  match b with
  | .docs => simp only [runFunP]; exact .ret _
  | .union => simp only [runFunP]; exact .ret _
  | .id => simp only [runFunP]; exact .ret _
  | .ignore => simp only [runFunP]; exact .ret _
  | .read => simp only [runFunP]; exact tame_readP fun n rest e => hb n (.inl rfl) rest e
  | .filter => simp only [runFunP]; exact tame_filterP fun n rest e => hb n (.inr rfl) rest e
  | .assertEqual =>
    match args with
    | [left, right] =>
      simp only [runFunP]
      refine tame_andThen (by rfl) (fun r => ?_) (tame_evalArgP left (fun n hn => hr n (by simp only [ReadsInList]; exact .inl hn))
        (fun n hn => hw n (by simp only [LetsInList]; exact .inl hn)))
      cases r with
      | ok l =>
        refine tame_andThen (by rfl) (fun r => ?_) (tame_evalArgP right (fun n hn => hr n (by simp only [ReadsInList]; exact .inr (.inl hn)))
          (fun n hn => hw n (by simp only [LetsInList]; exact .inr (.inl hn))))
        cases r <;> exact .ret _
      | err m => exact .ret _
      | panic => exact .ret _
    | [] => simp only [runFunP]; exact .ret _
    | [_] => simp only [runFunP]; exact .ret _
    | _ :: _ :: _ :: _ => simp only [runFunP]; exact .ret _
  | .assertFail =>
    match args with
    | [.quote q] =>
      simp only [runFunP]
      refine tame_andThen (by rfl) (fun r => ?_) (tame_evalArgP (.quote q) (fun n hn => hr n (by simp only [ReadsInList]; exact .inl hn))
        (fun n hn => hw n (by simp only [LetsInList]; exact .inl hn)))
      cases r <;> exact .ret _
    | [.element _] => simp only [runFunP]; exact .ret _
    | [.network _] => simp only [runFunP]; exact .ret _
    | [] => simp only [runFunP]; exact .ret _
    | _ :: _ :: _ => simp only [runFunP]; exact .ret _
  | .let_ =>
    match args with
    | [.element name, .network n] => simp only [runFunP]; exact tame_letP (hb' name rfl _ rfl) n
    | [.element name, .quote q] =>
      simp only [runFunP]
      refine tame_andThen (by rfl) (fun r => ?_) (tame_evalArgP (.quote q) (fun n hn => hr n (by simp only [ReadsInList]; exact .inr (.inl hn)))
        (fun n hn => hw n (by simp only [LetsInList]; exact .inr (.inl hn))))
      cases r with
      | ok v =>
        cases v with
        | network n => exact tame_letP (hb' name rfl _ rfl) n
        | element e => exact .ret _
        | quote q => exact .ret _
      | err m => exact .ret _
      | panic => exact .ret _
    | [.element _, .element _] => simp only [runFunP]; exact .ret _
    | [.quote _, _] => simp only [runFunP]; exact .ret _
    | [.network _, _] => simp only [runFunP]; exact .ret _
    | [] => simp only [runFunP]; exact .ret _
    | [_] => simp only [runFunP]; exact .ret _
    | _ :: _ :: _ :: _ => simp only [runFunP]; exact .ret _
end

theorem tame_callP (c : Call) (hr : ∀ n, CallReads n c → R n.text) (hw : ∀ n, CallLets n c → W n.text) : Tame R W (callP c) := by
  have := tame_runQuoteP (R := R) (W := W) (.element c.name :: c.args)
    (fun n hn => hr n (by
      simp only [ReadsIn, ReadsInList, List.cons.injEq, Value.element.injEq, false_or] at hn
      rcases hn with ⟨e, rest, ⟨rfl, h⟩, h'⟩ | h
      · exact .inl ⟨h', rest, h⟩
      · exact .inr h))
    (fun n hn => hw n (by
      simp only [LetsIn, LetsInList, List.cons.injEq, Value.element.injEq, false_or] at hn
      rcases hn with ⟨e, rest, ⟨rfl, h⟩, h'⟩ | h
      · exact .inl ⟨h', rest, h⟩
      · exact .inr h))
  simpa only [runQuoteP, callP] using this

theorem tame_runLoopP (calls : List Call) : (∀ c ∈ calls, ∀ n, CallReads n c → R n.text) → (∀ c ∈ calls, ∀ n, CallLets n c → W n.text) →
    ∀ v, Tame R W (runLoopP calls v) := by
  induction calls with
  | nil => intro _ _ v; exact .ret _
  | cons c cs ih =>
    intro hr hw v
    simp only [runLoopP]
    refine tame_andThen (by rfl) (fun r => ?_) (tame_callP c (hr c (by simp)) (hw c (by simp)))
    cases r with
    | ok w => exact ih (fun c h => hr c (List.mem_cons_of_mem _ h)) (fun c h => hw c (List.mem_cons_of_mem _ h)) w
    | err m => exact .ret _
    | panic => exact .ret _

theorem tame_callsP (calls : List Call) : Tame (fun _ => True) (fun _ => True) (callsP calls) :=
  tame_runLoopP calls (fun _ _ _ _ => trivial) (fun _ _ _ _ => trivial) emptyNet

theorem tame_scriptP (script : Str) : Tame (fun _ => True) (fun _ => True) (scriptP script) := by
  unfold scriptP
  split
  · exact .ret _
  · exact .ret _
  · split
    · exact .ret _
    · exact .ret _
    · exact tame_callsP _

/-! ## The operations of a program -/

variable {σ : Type u} (L : LigOps σ)

theorem asksOf_andThen (f : Res Value → Prog) (p : Prog) : ∀ s : σ,
    asksOf L (p.andThen f) s = asksOf L p s ++ asksOf L (f (p.run L s).1) (p.run L s).2 := by
  induction p with
  | ret r => intro s; rfl
  | ask q k ih => intro s; simp only [Prog.andThen, asksOf, Prog.run, ih, List.cons_append]

/-- Reads are in `R` and writes in `W`. -/
theorem tame_asks {p : Prog} (h : Tame R W p) : ∀ s : σ, ∀ q ∈ asksOf L p s, (Reading q → R (askName q)) ∧ (Writing q → W (askName q)) := by
  induction h with
  | ret r => intro s q hq; simp [asksOf] at hq
  | @entries c k h1 h2 _ ih =>
    intro s q hq
    simp only [asksOf, List.mem_cons] at hq
    rcases hq with rfl | hq
    · exact ⟨fun _ => h1, fun h => h.elim⟩
    · exact ih _ _ _ hq
  | @filter c p k h1 h2 _ ih =>
    intro s q hq
    simp only [asksOf, List.mem_cons] at hq
    rcases hq with rfl | hq
    · exact ⟨fun _ => h1, fun h => h.elim⟩
    · exact ih _ _ _ hq
  | @lets c n f h1 h2 _ ih =>
    intro s q hq
    rw [asksOf_andThen, List.mem_append] at hq
    rcases hq with hq | hq
    · have : askName q = c.text ∧ Writing q := by
        simp only [letP, asksOf] at hq
        rw [List.mem_cons] at hq
        rcases hq with rfl | hq
        · exact ⟨rfl, trivial⟩
        · revert hq
          split
          · simp [asksOf]
          · simp only [asksOf, List.mem_cons]
            rintro (rfl | hq)
            · exact ⟨rfl, trivial⟩
            · revert hq
              split <;> simp [asksOf]
      exact ⟨fun h => by cases q <;> simp_all [Reading, Writing], fun _ => this.1 ▸ h1⟩
    · rw [run_letP] at hq
      unfold letStore at hq
      revert hq
      split
      · rw [h2]; simp [asksOf]
      · split
        · rw [h2]; simp [asksOf]
        · exact ih _ _

/-- Reads and writes apart: nothing is read and then written. -/
theorem noReadThenWrite_of_apart {tr : List Ask} (hd : ∀ q ∈ tr, ∀ q' ∈ tr, Reading q → Writing q' → askName q' ≠ askName q) : NoReadThenWrite tr := by
  rintro a q b q' rfl hm h1 h2
  exact hd q (by simp) q' (by simp [hm]) h1 h2

theorem noReadThenWrite_append {t u : List Ask} (ht : NoReadThenWrite t) (hu : NoReadThenWrite u)
    (hd : ∀ q ∈ t, ∀ q' ∈ u, Reading q → Writing q' → askName q' ≠ askName q) : NoReadThenWrite (t ++ u) := by
  intro a q b q' e hm h1 h2
  rcases List.append_eq_append_iff.mp e with ⟨m, e1, e2⟩ | ⟨m, e1, e2⟩
  · -- `q` is in `u`
    exact hu _ _ _ _ e2 hm h1 h2
  · cases m with
    | nil =>
      simp only [List.nil_append] at e2
      exact hu [] _ _ _ e2.symm hm h1 h2
    | cons x m =>
      injection e2 with e2 e3
      subst e2
      rw [e3, show m.append u = m ++ u from rfl, List.mem_append] at hm
      rcases hm with hm | hm
      · exact ht _ _ _ _ e1 hm h1 h2
      · exact hd q (by rw [e1]; simp) q' hm h1 h2

theorem noReadThenWrite_loop (calls : List Call) : WritesBeforeReads calls → ∀ (v : Value) (s : σ), NoReadThenWrite (asksOf L (runLoopP calls v) s) := by
  induction calls with
  | nil => intro _ v s; exact noReadThenWrite_of_apart (by simp [runLoopP, asksOf])
  | cons c cs ih =>
    intro h v s
    simp only [runLoopP, asksOf_andThen]
    have h0 : ∀ (d : Call) (n m : Element), d ∈ c :: cs → CallReads n c → CallLets m d → n.text ≠ m.text := by
      intro d n m hd
      obtain ⟨j, hj⟩ := List.mem_iff_getElem?.mp hd
      exact h 0 j c d n m (Nat.zero_le _) rfl hj
    have hcs : WritesBeforeReads cs := fun i j c d n m hij hi hj => h (i + 1) (j + 1) c d n m (by omega) hi hj
    have t1 : Tame (fun x => ∃ n, CallReads n c ∧ n.text = x) (fun x => ∃ n, CallLets n c ∧ n.text = x) (callP c) :=
      tame_callP c (fun n h => ⟨n, h, rfl⟩) (fun n h => ⟨n, h, rfl⟩)
    have a1 := tame_asks L t1 s
    refine noReadThenWrite_append (noReadThenWrite_of_apart ?_) ?_ ?_
    · intro q hq q' hq' r w
      obtain ⟨n, hn, e⟩ := (a1 q hq).1 r
      obtain ⟨m, hm, e'⟩ := (a1 q' hq').2 w
      rw [← e, ← e']; exact (h0 c n m (by simp) hn hm).symm
    · split
      · exact ih hcs _ _
      · exact noReadThenWrite_of_apart (by simp [asksOf])
      · exact noReadThenWrite_of_apart (by simp [asksOf])
    · intro q hq q' hq' r w
      obtain ⟨n, hn, e⟩ := (a1 q hq).1 r
      revert hq'
      split
      · intro hq'
        have t2 : ∀ v, Tame (fun _ => True) (fun x => ∃ d ∈ cs, ∃ n, CallLets n d ∧ n.text = x) (runLoopP cs v) :=
          tame_runLoopP cs (fun _ _ _ _ => trivial) (fun d hd n h => ⟨d, hd, n, h, rfl⟩)
        obtain ⟨d, hd, m, hm, e'⟩ := (tame_asks L (t2 _) _ q' hq').2 w
        rw [← e, ← e']; exact (h0 d n m (by simp [hd]) hn hm).symm
      · simp [asksOf]
      · simp [asksOf]

theorem noReadThenWrite_weak {tr : List Ask} (h : NoReadThenWrite tr) : NoReadBeforeWrite tr :=
  fun a q b q' e hm h1 h2 h3 => absurd h3 (h a q b q' e hm h1 h2)

theorem noReadThenWrite_tail {q : Ask} {tr : List Ask} (h : NoReadThenWrite (q :: tr)) : NoReadThenWrite tr :=
  fun a x b q' e hm h1 h2 => h (q :: a) x b q' (by rw [e]; rfl) hm h1 h2

theorem noReadThenWrite_head {q : Ask} {tr : List Ask} (h : NoReadThenWrite (q :: tr)) (hq : Reading q) :
    ∀ q' ∈ tr, Writing q' → askName q' ≠ askName q :=
  fun q' hm h2 => h [] q tr q' rfl hm hq h2

/-- A collection that is written is written first, if nothing is read before it is written. -/
theorem firstWritten_of {tr : List Ask} (h : NoReadBeforeWrite tr) {q' : Ask} (hm : q' ∈ tr) (hw : Writing q') : FirstWritten (askName q') tr := by
  have key : ∀ (b a : List Ask), tr = a ++ b → (∀ x ∈ a, askName x ≠ askName q') → q' ∈ b → FirstWritten (askName q') tr := by
    intro b
    induction b with
    | nil => intro a _ _ h; cases h
    | cons x b ih =>
      intro a e ha hb
      by_cases hx : askName x = askName q'
      · by_cases hr : Reading x
        · rw [List.mem_cons] at hb
          rcases hb with rfl | hb
          · cases q' <;> simp_all [Reading, Writing]
          · obtain ⟨q0, h0, _, h2⟩ := h a x b q' e hb hr hw hx.symm
            exact absurd (h2.trans hx) (ha q0 h0)
        · exact ⟨a, x, b, e, by cases x <;> simp_all [Reading, Writing], hx, ha⟩
      · rw [List.mem_cons] at hb
        rcases hb with rfl | hb
        · exact absurd rfl hx
        · refine ih (a ++ [x]) (by rw [e]; simp) ?_ hb
          intro y hy
          rw [List.mem_append, List.mem_singleton] at hy
          rcases hy with hy | rfl
          · exact ha y hy
          · exact hx
  exact key tr [] rfl (by simp) hm

theorem firstWritten_of_cons {q : Ask} {tr : List Ask} {c : Str} (h : FirstWritten c (q :: tr)) (hq : askName q ≠ c ∨ ¬ Writing q) : FirstWritten c tr := by
  obtain ⟨a, x, b, e, h1, h2, h3⟩ := h
  cases a with
  | nil =>
    injection e with e e'
    subst e
    rcases hq with hq | hq
    · exact absurd h2 hq
    · exact absurd h1 hq
  | cons y a =>
    injection e with e e'
    exact ⟨a, x, b, e', h1, h2, fun z hz => h3 z (List.mem_cons_of_mem _ hz)⟩

theorem firstWritten_not_read {q : Ask} {tr : List Ask} {c : Str} (h : FirstWritten c (q :: tr)) (hq : ¬ Writing q) : askName q ≠ c := by
  obtain ⟨a, x, b, e, h1, h2, h3⟩ := h
  cases a with
  | nil => injection e with e e'; subst e; exact absurd h1 hq
  | cons y a => injection e with e e'; subst e; exact h3 _ (by simp)

end Steps
end Verif
