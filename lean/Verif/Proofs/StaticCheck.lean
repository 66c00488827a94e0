import Verif.Spec.StaticCheck
import Verif.Proofs.EvalSim
import Verif.Proofs.EvalMore
/-!
# Scripts that pass the static check do not panic
-/
namespace Verif
namespace Eval
open Spec

/-- What a store has to give: `I j Γ s` means the names `Γ` can be counted on in `s` and there is room for `j` more `let`s. -/
structure Provides (m : Target) (L : LigOps σ) (I : Nat → List Str → σ → Prop) (Lit Small : Network → Prop) : Prop where
  mono : ∀ {i j Γ s}, i ≤ j → I j Γ s → I i Γ s
  fewer : ∀ {j Γ Γ' s}, m = .memory → (∀ c ∈ Γ, c ∈ Γ') → I j Γ' s → I j Γ s
  read : ∀ {j Γ s} {c : Element}, I j Γ s → c.text ∈ Γ → ∃ n, L.entries s c = .ok n ∧ Small n
  readAny : ∀ {j Γ s} {c : Element}, m = .memory → I j Γ s → L.entries s c ≠ .panic
  filter : ∀ {j Γ s} {c a r b : Element}, m = .memory → I j Γ s → c.text ∈ Γ → ¬ IsVar a.text → ¬ IsVar r.text → ¬ IsVar b.text →
    ∃ n, L.filter s c (.role a b r) = .ok n ∧ Small n
  lets : ∀ {j Γ s} {c : Element} {n : Network}, I (j + 1) Γ s → MayLet m Γ c.text → Small n →
    (letStore L c n s).1 = .ok emptyNet ∧ I j (c.text :: Γ) (letStore L c n s).2
  empty : Small ∅
  lit : ∀ {n}, Lit n → Small n
  union : ∀ {a b}, Lit a → Lit b → Small (a.union b)
  docs : ∀ {n}, docs (common (σ := σ)) [] = .ok (.network n) → Small n

/-- The outcome of a call or argument that passes. -/
structure Outcome (m : Target) (I : Nat → List Str → σ → Prop) (Small : Network → Prop) (net : Bool) (j : Nat) (Γ Γ' : List Str) (o : Res Value × σ) : Prop where
  noPanic : o.1 ≠ .panic
  isNet : net = true → ∃ n, Small n ∧ o.1 = .ok (.network n)
  after : ∀ v, o.1 = .ok v → I j Γ' o.2
  kept : m = .memory → I j Γ o.2

theorem Outcome.weaken {I : Nat → List Str → σ → Prop} {o : Res Value × σ} (h : Outcome m I Small true j Γ Γ' o) : Outcome m I Small net j Γ Γ' o :=
  ⟨h.noPanic, fun _ => h.isNet rfl, h.after, h.kept⟩

theorem Outcome.here {I : Nat → List Str → σ → Prop} {s : σ} (h : I j Γ s) {r : Res Value} (hr : r ≠ .panic) : Outcome m I Small false j Γ Γ (r, s) :=
  ⟨hr, fun e => (Bool.false_ne_true e).elim, fun _ _ => h, fun _ => h⟩

theorem Outcome.net {net : Bool} {I : Nat → List Str → σ → Prop} {s : σ} (h : I j Γ s) {n : Network} (hn : Small n) :
    Outcome m I Small net j Γ Γ (.ok (.network n), s) :=
  ⟨by simp, fun _ => ⟨n, hn, rfl⟩, fun _ _ => h, fun _ => h⟩

variable {m : Target} {L : LigOps σ} {I : Nat → List Str → σ → Prop} {Lit Small : Network → Prop}

theorem partOf_all {v : Value} : ∀ {vs : List Value} {w : Value}, w ∈ vs → PartOf v w → PartOfAny v vs := by
  intro vs
  induction vs with
  | nil => intro w h; cases h
  | cons u us ih =>
    intro w h hp
    rw [PartOfAny]
    rcases List.mem_cons.mp h with rfl | h
    · exact .inl hp
    · exact .inr (ih h hp)

theorem runQuote_call {name : Element} {args : List Value} {n : Str} (hn : name.text = n) (d : Str) (b : Builtin)
    (h : (common : Commands σ).get? n = some ⟨d, .builtin b⟩) (s : σ) :
    runQuote L common (.element name :: args) s = runFun L common (.builtin b) args s := by
  simp only [runQuote, hn, h]

mutual
theorem argPasses_sub {net : Bool} {Γ Γ' : List Str} {v : Value} (h : ArgPasses m net Γ v Γ') : ∀ c ∈ Γ, c ∈ Γ' := by
  match h with
  | .element _ _ => exact fun _ h => h
  | .network _ _ _ => exact fun _ h => h
  | .empty _ _ => exact fun _ h => h
  | .call hc => exact callPasses_sub hc
theorem callPasses_sub {net : Bool} {Γ Γ' : List Str} {name : Element} {args : List Value} (h : CallPasses m net Γ name args Γ') : ∀ c ∈ Γ, c ∈ Γ' := by
  match h with
  | .docs _ => exact fun _ h => h
  | .union _ _ _ => exact fun _ h => h
  | .idNetwork _ _ => exact fun _ h => h
  | .ignore _ _ => exact fun _ h => h
  | .read _ _ => exact fun _ h => h
  | .filter _ _ _ _ _ _ => exact fun _ h => h
  | .let_ _ _ _ => exact fun _ h => List.mem_cons_of_mem _ h
  | .letQuote _ hq _ => exact fun _ h => List.mem_cons_of_mem _ (argPasses_sub hq _ h)
  | .id _ _ => exact fun _ h => h
  | .docsArgs _ _ => exact fun _ h => h
  | .unionArgs _ _ => exact fun _ h => h
  | .readMissing _ _ _ => exact fun _ h => h
  | .letArgs _ _ _ => exact fun _ h => h
  | .unknown _ _ => exact fun _ h => h
  | .equal _ hx hy => exact fun _ h => argPasses_sub hy _ (argPasses_sub hx _ h)
  | .equalArgs _ _ => exact fun _ h => h
  | .fail _ _ _ => exact fun _ h => h
  | .failArgs _ _ => exact fun _ h => h
end

mutual
theorem argPasses_outcome (P : Provides m L I Lit Small) {net : Bool} {Γ Γ' : List Str} {v : Value} (h : ArgPasses m net Γ v Γ')
    (hl : ∀ n, PartOf (.network n) v → Lit n) {j : Nat} {s : σ} (hi : I (j + quotesIn v) Γ s) :
    Outcome m I Small net j Γ Γ' (evalArg L common v s) := by
  match h with
  | .element Γ e => rw [evalArg]; exact .here (P.mono (by omega) hi) (by simp)
  | .network net Γ n =>
    rw [evalArg]; exact .net (P.mono (i := j) (by omega) hi) (P.lit (hl n (by rw [PartOf])))
  | .empty net Γ => rw [evalArg, runQuote]; exact .net (P.mono (i := j) (by omega) hi) P.empty
  | .call (args := args) hc =>
    rw [evalArg]
    refine callPasses_outcome P hc (fun n hn => hl n ?_) (P.mono ?_ hi)
    · rw [PartOf, PartOfAny]; exact .inr (.inr hn)
    · simp only [quotesIn, quotesInAll]; omega

theorem callPasses_outcome (P : Provides m L I Lit Small) {net : Bool} {Γ Γ' : List Str} {name : Element} {args : List Value}
    (h : CallPasses m net Γ name args Γ') (hl : ∀ n, PartOfAny (.network n) args → Lit n) {j : Nat} {s : σ} (hi : I (j + (1 + quotesInAll args)) Γ s) :
    Outcome m I Small net j Γ Γ' (runQuote L common (.element name :: args) s) := by
  have hj : I j Γ s := P.mono (by omega) hi
  match h with
  | .docs hn =>
    rw [runQuote_call hn _ .docs rfl, runFun]
    exact .net hj (P.docs rfl)
  | .union a b hn =>
    rw [runQuote_call hn _ .union rfl, runFun]
    exact .net hj (P.union (hl a (by simp [PartOfAny, PartOf])) (hl b (by simp [PartOfAny, PartOf])))
  | .idNetwork n hn =>
    rw [runQuote_call hn _ .id rfl, runFun]
    exact .net hj (P.lit (hl n (by simp [PartOfAny, PartOf])))
  | .ignore args hn =>
    rw [runQuote_call hn _ .ignore rfl, runFun]
    exact .net hj P.empty
  | .read hn hc =>
    rw [runQuote_call hn _ .read rfl, runFun]
    obtain ⟨n, h1, h2⟩ := P.read hj hc
    simp only [Eval.read, h1]
    exact .net hj h2
  | .filter hm hn hc ha hr hb =>
    rw [runQuote_call hn _ .filter rfl, runFun]
    obtain ⟨n, h1, h2⟩ := P.filter hm hj hc ha hr hb
    simp only [filterCmd, h1]
    exact .net hj h2
  | .let_ n hn hc =>
    rw [runQuote_call hn _ .let_ rfl, runFun]
    obtain ⟨h1, h2⟩ := P.lets (P.mono (i := j + 1) (by omega) hi) hc (P.lit (hl n (by simp [PartOfAny, PartOf])))
    refine ⟨by rw [h1]; simp, fun _ => ⟨∅, P.empty, h1⟩, fun _ _ => h2, fun hm => P.fewer hm (fun c hc => List.mem_cons_of_mem _ hc) h2⟩
  | .letQuote (Γ' := Γ1) (c := c) (q := q) hn hq hc =>
    rw [runQuote_call hn _ .let_ rfl, runFun]
    have ho := argPasses_outcome P hq (fun n hn => hl n (by simp only [PartOfAny]; exact .inr (.inl hn))) (j := j + 1) (s := s)
      (P.mono (by simp only [quotesInAll]; omega) hi)
    obtain ⟨n, hs, ho1⟩ := ho.isNet rfl
    have ho2 := ho.after _ ho1
    have ho3 := ho.kept
    revert ho1 ho2 ho3
    rcases evalArg L common (.quote q) s with ⟨r, s1⟩
    rintro rfl ho2 ho3
    obtain ⟨h1, h2⟩ := P.lets ho2 hc hs
    dsimp only
    refine ⟨by rw [h1]; simp, fun _ => ⟨∅, P.empty, h1⟩, fun _ _ => h2,
      fun hm => P.fewer hm (fun c hc => List.mem_cons_of_mem _ (argPasses_sub hq c hc)) h2⟩
  | .id args hn =>
    rw [runQuote_call hn _ .id rfl, runFun]
    exact .here hj (by unfold idCmd; split <;> simp)
  | .docsArgs args hn =>
    rw [runQuote_call hn _ .docs rfl, runFun]
    exact .here hj (by unfold Eval.docs; split <;> simp)
  | .unionArgs hn ha =>
    rw [runQuote_call hn _ .union rfl, runFun]
    refine .here hj ?_
    unfold Eval.union
    split
    · exact absurd rfl ha
    · simp
  | .readMissing c hm hn =>
    rw [runQuote_call hn _ .read rfl, runFun]
    have := P.readAny (c := c) hm hj
    refine .here hj ?_
    simp only [Eval.read]
    split
    · simp
    · simp
    · exact fun _ => this ‹_›
  | .letArgs hn h1 h2 =>
    rw [runQuote_call hn _ .let_ rfl]
    match args with
    | [] => simp only [runFun]; exact .here hj (by simp)
    | [_] => simp only [runFun]; exact .here hj (by simp)
    | [.element c, .element _] => simp only [runFun]; exact .here hj (by simp)
    | [.element c, .network n] => exact absurd ⟨_, _, rfl⟩ h1
    | [.element c, .quote q] => exact absurd ⟨_, _, rfl⟩ h2
    | [.network c, _] => simp only [runFun]; exact .here hj (by simp)
    | [.quote c, _] => simp only [runFun]; exact .here hj (by simp)
    | _ :: _ :: _ :: _ => simp only [runFun]; exact .here hj (by simp)
  | .unknown args hn =>
    simp only [runQuote]
    have : (common : Commands σ).get? name.text = none := by
      rcases common_get_both (σ := Unit) (τ := σ) name.text with ⟨b, d, h1, _⟩ | ⟨_, h2⟩
      · exact absurd rfl (hn _ (mem_of_lookup h1))
      · exact h2
    rw [this]
    exact .here hj (by simp)
  | .equal (Γ₁ := Γ1) (x := x) (y := y) hn hx hy =>
    rw [runQuote_call hn _ .assertEqual rfl]
    simp only [runFun]
    have ho := argPasses_outcome P hx (fun n hn => hl n (by simp only [PartOfAny]; exact .inl hn)) (j := j + quotesIn y) (s := s)
      (P.mono (by simp only [quotesInAll]; omega) hi)
    have o1 := ho.noPanic
    have o2 := ho.after
    have o3 := ho.kept
    revert o1 o2 o3
    rcases evalArg L common x s with ⟨r, s1⟩
    cases r with
    | panic => intro o1; exact absurd rfl o1
    | err e => intro _ _ o3; exact ⟨by simp, by simp, by simp, fun hm => P.mono (by omega) (o3 hm)⟩
    | ok v =>
      intro _ o2 o3
      have ho' := argPasses_outcome P hy (fun n hn => hl n (by simp only [PartOfAny]; exact .inr (.inl hn))) (o2 v rfl)
      have p1 := ho'.noPanic
      have p2 := ho'.after
      have p3 := ho'.kept
      dsimp only
      revert p1 p2 p3
      rcases evalArg L common y s1 with ⟨r, s2⟩
      cases r with
      | panic => intro p1; exact absurd rfl p1
      | err e => intro _ _ p3; exact ⟨by simp, by simp, by simp, fun hm => P.fewer hm (argPasses_sub hx) (p3 hm)⟩
      | ok w =>
        intro _ p2 p3
        refine ⟨?_, by simp, fun _ _ => p2 w rfl, fun hm => P.fewer hm (argPasses_sub hx) (p3 hm)⟩
        unfold assertEqualResult; dsimp only; split <;> simp
  | .equalArgs hn ha =>
    rw [runQuote_call hn _ .assertEqual rfl]
    match args with
    | [] => simp only [runFun]; exact .here hj (by simp)
    | [_] => simp only [runFun]; exact .here hj (by simp)
    | [_, _] => exact absurd rfl ha
    | _ :: _ :: _ :: _ => simp only [runFun]; exact .here hj (by simp)
  | .fail (q := q) hn hq hm =>
    rw [runQuote_call hn _ .assertFail rfl]
    simp only [runFun]
    have ho := argPasses_outcome P hq (fun n hn => hl n (by simp only [PartOfAny]; exact .inl hn)) (j := j) (s := s)
      (P.mono (by simp only [quotesInAll]; omega) hi)
    have o1 := ho.noPanic
    have o3 := ho.kept
    have o4 : m = .anyStore → (evalArg L common (.quote q) s).2 = s :=
      fun e => evalArg_frozen L (fun n c => common_get n c) (.quote q) (hm e) s
    revert o1 o3 o4
    rcases evalArg L common (.quote q) s with ⟨r, s1⟩
    intro o1 o3 o4
    have o5 : I j Γ s1 := by
      cases m with
      | memory => exact o3 rfl
      | anyStore => have := o4 rfl; dsimp only at this; subst this; exact hj
    cases r with
    | panic => exact absurd rfl o1
    | err e => exact .here o5 (by simp)
    | ok v => exact .here o5 (by simp)
  | .failArgs hn ha =>
    rw [runQuote_call hn _ .assertFail rfl]
    match args with
    | [] => simp only [runFun]; exact .here hj (by simp)
    | [.element _] => simp only [runFun]; exact .here hj (by simp)
    | [.network _] => simp only [runFun]; exact .here hj (by simp)
    | [.quote _] => exact absurd ⟨_, rfl⟩ ha
    | _ :: _ :: _ => simp only [runFun]; exact .here hj (by simp)
end

theorem passes_noPanic (P : Provides m L I Lit Small) {Γ : List Str} {calls : List Call} (h : Passes m Γ calls) :
    ∀ {s : σ} {v : Value}, (∀ n, WrittenValue calls (.network n) → Lit n) → I (scriptSize calls) Γ s → (runCallsLoop L common calls v s).1 ≠ .panic := by
  induction h with
  | nil => intro s v _ _; simp [runCallsLoop]
  | @cons Γ Γ' c cs hc _ ih =>
    intro s v hl hi
    have ho := callPasses_outcome P hc (fun n hn => hl n ⟨c, List.mem_cons_self, hn⟩) (j := scriptSize cs) (s := s)
      (P.mono (by simp only [scriptSize, List.map_cons, List.sum_cons]; omega) hi)
    have e : runQuote L common (.element c.name :: c.args) s = runCall L common c s := by simp only [runQuote, runCall]
    rw [e] at ho
    simp only [runCallsLoop]
    have o1 := ho.noPanic
    have o2 := ho.after
    revert o1 o2
    rcases runCall L common c s with ⟨r, s1⟩
    cases r with
    | panic => intro o1; exact absurd rfl o1
    | err e => intro _ _; simp
    | ok w =>
      intro _ o2
      exact ih (fun n ⟨c', hc', hn⟩ => hl n ⟨c', List.mem_cons_of_mem _ hc', hn⟩) (o2 w rfl)

end Eval
end Verif
