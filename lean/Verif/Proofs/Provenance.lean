import Verif.Spec.Provenance
import Verif.Proofs.Steps
import Verif.Proofs.Graph
/-!
# The step-by-step evaluator: number of store operations, and provenance
-/
namespace Verif
namespace Steps
open Eval Spec

/-- Whatever the store answers, the program makes at most `n` operations before it ends. -/
def Within (n : Nat) : Prog → Prop
  | .ret _ => True
  | .ask _ k => ∃ m, n = m + 1 ∧ ∀ a, Within m (k a)

theorem Within.mono (p : Prog) : ∀ {m n : Nat}, m ≤ n → Within m p → Within n p := by
  induction p with
  | ret r => intro m n _ _; trivial
  | ask q k ih =>
    rintro m n h ⟨j, rfl, hk⟩
    exact ⟨n - 1, by omega, fun a => ih a (by omega) (hk a)⟩

theorem within_andThen {n : Nat} {k : Res Value → Prog} (hk : ∀ r, Within n (k r)) (p : Prog) : ∀ {m}, Within m p → Within (m + n) (p.andThen k) := by
  induction p with
  | ret r => intro m _; exact (hk r).mono _ (by omega)
  | ask q f ih =>
    rintro m ⟨j, rfl, h⟩
    exact ⟨j + n, by omega, fun a => ih a (h a)⟩

theorem within_letP (name : Element) (n : Network) : Within 2 (letP name n) := by
  refine ⟨1, rfl, fun a => ?_⟩
  dsimp only
  split
  · trivial
  · refine ⟨0, rfl, fun a => ?_⟩
    dsimp only
    split <;> trivial

theorem within_readP (args : List Value) : Within 1 (readP args) := by
  unfold readP
  split
  · refine ⟨0, rfl, fun a => ?_⟩
    dsimp only
    split <;> trivial
  · trivial

theorem within_filterP (args : List Value) : Within 1 (filterP args) := by
  unfold filterP
  split
  · refine ⟨0, rfl, fun a => ?_⟩
    dsimp only
    split <;> trivial
  · trivial

mutual
theorem within_evalArgP (v : Value) : Within (2 * quotesIn v) (evalArgP v) := by
  match v with
  | .quote q => rw [evalArgP]; exact (within_runQuoteP q).mono _ (by simp only [quotesIn]; omega)
  | .element e => simp only [evalArgP]; trivial
  | .network n => simp only [evalArgP]; trivial

theorem within_runQuoteP (q : List Value) : Within (2 + 2 * quotesInAll q) (runQuoteP q) := by
  match q with
  | [] => simp only [runQuoteP]; trivial
  | .element name :: args =>
    simp only [runQuoteP]
    rcases common_get_both (σ := Unit) (τ := Unit) name.text with ⟨b, d, h1, h2⟩ | ⟨h1, h2⟩
    · rw [show table.get? name.text = _ from h1]
      exact (within_runFunP args b).mono _ (by simp only [quotesInAll]; omega)
    · rw [show table.get? name.text = _ from h1]; trivial
  | .quote _ :: _ => simp only [runQuoteP]; trivial
  | .network _ :: _ => simp only [runQuoteP]; trivial

theorem within_runFunP (args : List Value) : ∀ b : Builtin, Within (2 + 2 * quotesInAll args) (runFunP (.builtin b) args) := by
  intro b
  match b with
  | .docs => simp only [runFunP]; trivial
  | .union => simp only [runFunP]; trivial
  | .id => simp only [runFunP]; trivial
  | .ignore => simp only [runFunP]; trivial
  | .read => simp only [runFunP]; exact (within_readP args).mono _ (by omega)
  | .filter => simp only [runFunP]; exact (within_filterP args).mono _ (by omega)
  | .assertEqual =>
    match args with
    | [left, right] =>
      simp only [runFunP]
      refine (within_andThen (n := 2 * quotesIn right) (fun r => ?_) _ (within_evalArgP left)).mono _ (by simp only [quotesInAll]; omega)
      cases r with
      | ok l =>
        refine (within_andThen (n := 0) (fun r => ?_) _ (within_evalArgP right)).mono _ (by omega)
        cases r <;> trivial
      | err m => trivial
      | panic => trivial
    | [] => simp only [runFunP]; trivial
    | [_] => simp only [runFunP]; trivial
    | _ :: _ :: _ :: _ => simp only [runFunP]; trivial
  | .assertFail =>
    match args with
    | [.quote q] =>
      simp only [runFunP]
      refine (within_andThen (n := 0) (fun r => ?_) _ (within_evalArgP (.quote q))).mono _ (by simp only [quotesInAll]; omega)
      cases r <;> trivial
    | [.element _] => simp only [runFunP]; trivial
    | [.network _] => simp only [runFunP]; trivial
    | [] => simp only [runFunP]; trivial
    | _ :: _ :: _ => simp only [runFunP]; trivial
  | .let_ =>
    match args with
    | [.element name, .network n] => simp only [runFunP]; exact (within_letP name n).mono _ (by omega)
    | [.element name, .quote q] =>
      simp only [runFunP]
      refine (within_andThen (n := 2) (fun r => ?_) _ (within_evalArgP (.quote q))).mono _ (by simp only [quotesInAll]; omega)
      cases r with
      | ok v =>
        cases v with
        | network n => exact within_letP name n
        | element e => trivial
        | quote q => trivial
      | err m => trivial
      | panic => trivial
    | [.element _, .element _] => simp only [runFunP]; trivial
    | [.quote _, _] => simp only [runFunP]; trivial
    | [.network _, _] => simp only [runFunP]; trivial
    | [] => simp only [runFunP]; trivial
    | [_] => simp only [runFunP]; trivial
    | _ :: _ :: _ :: _ => simp only [runFunP]; trivial
end

theorem callP_eq (c : Call) : callP c = runQuoteP (.element c.name :: c.args) := by simp only [runQuoteP, callP]

theorem within_callsP (calls : List Call) : ∀ v, Within (2 * scriptSize calls) (runLoopP calls v) := by
  induction calls with
  | nil => intro v; trivial
  | cons c cs ih =>
    intro v
    simp only [runLoopP]
    refine (within_andThen (n := 2 * scriptSize cs) (fun r => ?_) _ (callP_eq c ▸ within_runQuoteP _)).mono _ ?_
    · cases r with
      | ok w => exact ih w
      | err m => trivial
      | panic => trivial
    · simp only [scriptSize, List.map_cons, List.sum_cons, quotesInAll, quotesIn]; omega

/-! ## Provenance -/

/-- The entries of an answer have the property. -/
def AnswerIn (A : Entry → Prop) (a : Answer) : Prop := ∀ n, a = .network (.ok n) → ∀ e ∈ n, A e

/-- A result made of entries with the property, or of values with the other. -/
def ResultIn (A : Entry → Prop) (V : Value → Prop) (r : Res Value) : Prop :=
  ∀ v, r = .ok v → (∀ n, v = .network n → ∀ e ∈ n, A e) ∧ ((∃ n, v = .network n) ∨ V v)

/-- As long as the store answers with entries of `A`, the program only writes entries of `A` and ends with a result made of them. -/
def Safe (A : Entry → Prop) (V : Value → Prop) : Prog → Prop
  | .ret r => ResultIn A V r
  | .ask q k => (∀ c es, q = .addEntries c es → ∀ e ∈ es, A e) ∧ ∀ a, AnswerIn A a → Safe A V (k a)

variable {A : Entry → Prop} {V : Value → Prop}

theorem safe_andThen {k : Res Value → Prog} (hk : ∀ r, ResultIn A V r → Safe A V (k r)) (p : Prog) : Safe A V p → Safe A V (p.andThen k) := by
  induction p with
  | ret r => exact fun h => hk r h
  | ask q f ih => exact fun ⟨h1, h2⟩ => ⟨h1, fun a ha => ih a (h2 a ha)⟩

theorem resultIn_err (m : Str) : ResultIn A V (.err m) := by intro v h; cases h
theorem resultIn_panic : ResultIn A V .panic := by intro v h; cases h
theorem resultIn_net {n : Network} (h : ∀ e ∈ n, A e) : ResultIn A V (.ok (.network n)) := by
  intro v hv; cases hv; exact ⟨fun m e => by cases e; exact h, .inl ⟨n, rfl⟩⟩
theorem resultIn_empty : ResultIn A V (.ok emptyNet) := resultIn_net (fun e he => by simp at he)

theorem safe_letP (name : Element) (n : Network) (h : ∀ e ∈ n, A e) : Safe A V (letP name n) := by
  refine ⟨fun c es e => (by cases e), fun a _ => ?_⟩
  dsimp only
  split
  · exact resultIn_panic
  · refine ⟨fun c es e => (by cases e; exact h), fun a _ => ?_⟩
    dsimp only
    split
    · exact resultIn_panic
    · exact resultIn_empty

theorem safe_readP (args : List Value) : Safe A V (readP args) := by
  unfold readP
  split
  · refine ⟨fun c es e => (by cases e), fun a ha => ?_⟩
    dsimp only
    split
    · rename_i n; exact resultIn_net (ha n rfl)
    · exact resultIn_err _
    · exact resultIn_panic
  · exact resultIn_panic

theorem safe_filterP (args : List Value) : Safe A V (filterP args) := by
  unfold filterP
  split
  · refine ⟨fun c es e => (by cases e), fun a ha => ?_⟩
    dsimp only
    split
    · rename_i n; exact resultIn_net (ha n rfl)
    · exact resultIn_panic
  · exact resultIn_panic

theorem partOf_self (v : Value) : PartOf v v := by cases v <;> simp [PartOf]

theorem resultIn_assertEqual (l r : Value) : ResultIn A V (assertEqualResult l r) := by
  unfold assertEqualResult
  intro v h
  split at h
  · cases h; exact resultIn_empty _ rfl
  · cases h

theorem resultIn_union (args : List Value) (hA : ∀ e, WrittenInAny e args → A e) : ResultIn A V (union args) := by
  unfold union
  intro v h
  split at h
  · rename_i l r
    split at h
    · split at h
      · cases h
        refine resultIn_net (fun e he => hA e ?_) _ rfl
        rw [BSet.mem_union] at he
        simp only [WrittenInAny, WrittenIn, or_false]
        exact he
      · cases h
    · cases h
  · cases h

theorem resultIn_id (args : List Value) (hA : ∀ e, WrittenInAny e args → A e) (hV : ∀ v, PartOfAny v args → V v) : ResultIn A V (idCmd args) := by
  unfold idCmd
  intro v h
  split at h
  · cases h
    refine ⟨fun n e => ?_, .inr (hV _ (by simp only [PartOfAny]; exact .inl (partOf_self _)))⟩
    subst e
    exact fun e he => hA e (by simp only [WrittenInAny, WrittenIn, or_false]; exact he)
  · cases h

/-- What the calls of a function with these arguments may need. -/
structure Covers (A : Entry → Prop) (V : Value → Prop) (args : List Value) : Prop where
  entry : ∀ e, WrittenInAny e args → A e
  value : ∀ v, PartOfAny v args → V v
  docs : InvokedInAny (lit "docs") args → ∀ e, DocEntry e → A e

theorem Covers.head {v : Value} {vs : List Value} (h : Covers A V (v :: vs)) : Covers A V [v] where
  entry e he := h.entry e (by simp only [WrittenInAny, or_false] at he ⊢; exact .inl he)
  value e he := h.value e (by simp only [PartOfAny, or_false] at he ⊢; exact .inl he)
  docs hd := h.docs (by simp only [InvokedInAny, or_false] at hd ⊢; exact .inl hd)

theorem Covers.tail {v : Value} {vs : List Value} (h : Covers A V (v :: vs)) : Covers A V vs where
  entry e he := h.entry e (by simp only [WrittenInAny]; exact .inr he)
  value e he := h.value e (by simp only [PartOfAny]; exact .inr he)
  docs hd := h.docs (by simp only [InvokedInAny]; exact .inr hd)

theorem Covers.quote {q : List Value} (h : Covers A V [.quote q]) : Covers A V q where
  entry e he := h.entry e (by simp only [WrittenInAny, WrittenIn, or_false]; exact he)
  value e he := h.value e (by simp only [PartOfAny, PartOf, or_false]; exact .inr he)
  docs hd := h.docs (by simp only [InvokedInAny, InvokedIn, or_false]; exact .inr hd)

theorem docs_name : ∀ {name : Str} {d : Str}, table.get? name = some ⟨d, .builtin .docs⟩ → name = lit "docs" := by
  intro name d h
  have hm : (name, (⟨d, .builtin .docs⟩ : Command Unit)) ∈ (common : Commands Unit) := mem_of_lookup h
  simp only [common, List.mem_cons, Prod.mk.injEq, List.not_mem_nil, or_false, Command.mk.injEq, CmdFun.builtin.injEq, reduceCtorEq, and_false, false_or] at hm
  exact hm.1

theorem docEntry_of_docs {n : Network} (args : List Value) (h : docs table args = .ok (.network n)) : ∀ e ∈ n, DocEntry e := by
  unfold docs at h
  split at h
  · cases h
    intro e he
    rw [show table = (common : Commands Unit) from rfl] at he
    rw [mem_docs] at he
    simp only [BSet.not_mem_empty, false_or] at he
    obtain ⟨⟨name, c⟩, hm, rfl⟩ := he
    simp only [common, List.mem_cons, Prod.mk.injEq, List.not_mem_nil, or_false] at hm
    unfold DocEntry
    rcases hm with ⟨rfl, rfl⟩ | ⟨rfl, rfl⟩ | ⟨rfl, rfl⟩ | ⟨rfl, rfl⟩ | ⟨rfl, rfl⟩ | ⟨rfl, rfl⟩ | ⟨rfl, rfl⟩ | ⟨rfl, rfl⟩ | ⟨rfl, rfl⟩
    all_goals first
      | exact ⟨_, .head _, rfl⟩
      | exact ⟨_, .tail _ (.head _), rfl⟩
      | exact ⟨_, .tail _ (.tail _ (.head _)), rfl⟩
      | exact ⟨_, .tail _ (.tail _ (.tail _ (.head _))), rfl⟩
      | exact ⟨_, .tail _ (.tail _ (.tail _ (.tail _ (.head _)))), rfl⟩
      | exact ⟨_, .tail _ (.tail _ (.tail _ (.tail _ (.tail _ (.head _))))), rfl⟩
      | exact ⟨_, .tail _ (.tail _ (.tail _ (.tail _ (.tail _ (.tail _ (.head _)))))), rfl⟩
      | exact ⟨_, .tail _ (.tail _ (.tail _ (.tail _ (.tail _ (.tail _ (.tail _ (.head _))))))), rfl⟩
      | exact ⟨_, .tail _ (.tail _ (.tail _ (.tail _ (.tail _ (.tail _ (.tail _ (.tail _ (.head _)))))))), rfl⟩
  · cases h

mutual
theorem safe_evalArgP (v : Value) (h : Covers A V [v]) : Safe A V (evalArgP v) := by
  match v with
  | .quote q => rw [evalArgP]; exact safe_runQuoteP q h.quote (fun hd => h.docs (by simp only [InvokedInAny, InvokedIn, or_false]; exact .inl hd))
  | .element e =>
    simp only [evalArgP]
    intro v hv; cases hv
    exact ⟨fun n e => (by cases e), .inr (h.value _ (by simp [PartOfAny, PartOf]))⟩
  | .network n =>
    simp only [evalArgP]
    exact resultIn_net fun e he => h.entry e (by simp only [WrittenInAny, WrittenIn, or_false]; exact he)

theorem safe_runQuoteP (q : List Value) (h : Covers A V q)
    (hd : (∃ e args, q = .element e :: args ∧ e.text = lit "docs") → ∀ e, DocEntry e → A e) : Safe A V (runQuoteP q) := by
  match q with
  | [] => simp only [runQuoteP]; exact resultIn_empty
  | .element name :: args =>
    simp only [runQuoteP]
    rcases common_get_both (σ := Unit) (τ := Unit) name.text with ⟨b, d, h1, h2⟩ | ⟨h1, h2⟩
    · rw [show table.get? name.text = _ from h1]
      refine safe_runFunP args b h.tail ?_
      rintro rfl
      exact hd ⟨name, args, rfl, docs_name h1⟩
    · rw [show table.get? name.text = _ from h1]; exact resultIn_err _
  | .quote _ :: _ => simp only [runQuoteP]; exact resultIn_panic
  | .network _ :: _ => simp only [runQuoteP]; exact resultIn_panic

theorem safe_runFunP (args : List Value) : ∀ b : Builtin, Covers A V args → (b = .docs → ∀ e, DocEntry e → A e) →
    Safe A V (runFunP (.builtin b) args) := by
  intro b h hd
  match b with
  | .docs =>
    simp only [runFunP]
    intro v hv
    have : ∃ n, v = .network n := by
      unfold docs at hv
      split at hv
      · cases hv; exact ⟨_, rfl⟩
      · cases hv
    obtain ⟨n, rfl⟩ := this
    exact resultIn_net (fun e he => hd rfl e (docEntry_of_docs args hv e he)) _ rfl
  | .union => simp only [runFunP]; exact resultIn_union args h.entry
  | .id => simp only [runFunP]; exact resultIn_id args h.entry h.value
  | .ignore => simp only [runFunP]; exact resultIn_empty
  | .read => simp only [runFunP]; exact safe_readP args
  | .filter => simp only [runFunP]; exact safe_filterP args
  | .assertEqual =>
    match args with
    | [left, right] =>
      simp only [runFunP]
      refine safe_andThen (fun r hr => ?_) _ (safe_evalArgP left h.head)
      cases r with
      | ok l =>
        refine safe_andThen (fun r hr => ?_) _ (safe_evalArgP right h.tail)
        cases r with
        | ok r => exact resultIn_assertEqual l r
        | err m => exact resultIn_err m
        | panic => exact resultIn_panic
      | err m => exact resultIn_err m
      | panic => exact resultIn_panic
    | [] => simp only [runFunP]; exact resultIn_err _
    | [_] => simp only [runFunP]; exact resultIn_err _
    | _ :: _ :: _ :: _ => simp only [runFunP]; exact resultIn_err _
  | .assertFail =>
    match args with
    | [.quote q] =>
      simp only [runFunP]
      refine safe_andThen (fun r hr => ?_) _ (safe_evalArgP (.quote q) h)
      cases r with
      | ok r => exact resultIn_err _
      | err m => exact resultIn_empty
      | panic => exact resultIn_panic
    | [.element _] => simp only [runFunP]; exact resultIn_err _
    | [.network _] => simp only [runFunP]; exact resultIn_err _
    | [] => simp only [runFunP]; exact resultIn_err _
    | _ :: _ :: _ => simp only [runFunP]; exact resultIn_err _
  | .let_ =>
    match args with
    | [.element name, .network n] =>
      simp only [runFunP]
      exact safe_letP name n fun e he => h.entry e (by simp only [WrittenInAny, WrittenIn, or_false]; exact .inr he)
    | [.element name, .quote q] =>
      simp only [runFunP]
      refine safe_andThen (fun r hr => ?_) _ (safe_evalArgP (.quote q) h.tail)
      cases r with
      | ok v =>
        cases v with
        | network n => exact safe_letP name n ((hr _ rfl).1 n rfl)
        | element e => exact resultIn_panic
        | quote q => exact resultIn_panic
      | err m => exact resultIn_panic
      | panic => exact resultIn_panic
    | [.element _, .element _] => simp only [runFunP]; exact resultIn_err _
    | [.quote _, _] => simp only [runFunP]; exact resultIn_err _
    | [.network _, _] => simp only [runFunP]; exact resultIn_err _
    | [] => simp only [runFunP]; exact resultIn_err _
    | [_] => simp only [runFunP]; exact resultIn_err _
    | _ :: _ :: _ :: _ => simp only [runFunP]; exact resultIn_err _
end

theorem safe_runLoopP (calls : List Call) : (∀ e, Written calls e → A e) → (∀ v, WrittenValue calls v → V v) →
    (Invokes calls (lit "docs") → ∀ e, DocEntry e → A e) → ∀ v, ResultIn A V (.ok v) → Safe A V (runLoopP calls v) := by
  induction calls with
  | nil => intro _ _ _ v hv; exact hv
  | cons c cs ih =>
    intro hA hV hD v _
    simp only [runLoopP]
    refine safe_andThen (fun r hr => ?_) _ ?_
    · cases r with
      | ok w =>
        exact ih (fun e ⟨c, h, he⟩ => hA e ⟨c, List.mem_cons_of_mem _ h, he⟩) (fun v ⟨c, h, he⟩ => hV v ⟨c, List.mem_cons_of_mem _ h, he⟩)
          (fun ⟨c, h, he⟩ => hD ⟨c, List.mem_cons_of_mem _ h, he⟩) w hr
      | err m => exact resultIn_err m
      | panic => exact resultIn_panic
    · have hc : Covers A V c.args :=
        ⟨fun e he => hA e ⟨c, List.mem_cons_self, he⟩, fun v hv => hV v ⟨c, List.mem_cons_self, hv⟩,
          fun hd => hD ⟨c, List.mem_cons_self, .inr hd⟩⟩
      unfold callP
      rcases common_get_both (σ := Unit) (τ := Unit) c.name.text with ⟨b, d, h1, h2⟩ | ⟨h1, h2⟩
      · rw [show table.get? c.name.text = _ from h1]
        refine safe_runFunP c.args b hc ?_
        rintro rfl
        exact hD ⟨c, List.mem_cons_self, .inl (docs_name h1)⟩
      · rw [show table.get? c.name.text = _ from h1]; exact resultIn_err _

theorem safe_callsP (calls : List Call) (hA : ∀ e, Written calls e → A e) (hV : ∀ v, WrittenValue calls v → V v)
    (hD : Invokes calls (lit "docs") → ∀ e, DocEntry e → A e) : Safe A V (callsP calls) :=
  safe_runLoopP calls hA hV hD _ resultIn_empty

end Steps
end Verif
