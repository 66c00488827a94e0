import Verif.Spec.Effects
import Verif.Proofs.EvalSim
import Verif.Proofs.EvalMore
/-!
# Scripts depend only on the collections they name
-/
namespace Verif
namespace Eval
open Spec

variable {σ : Type u} {τ : Type v}

/-- Two stores behave the same on related states as far as the collections in `N` are concerned. -/
structure RelOn (N : Str → Prop) (R : σ → τ → Prop) (L : LigOps σ) (L' : LigOps τ) : Prop where
  entries : ∀ s t (c : Element), N c.text → R s t → L.entries s c = L'.entries t c
  filter : ∀ s t (c : Element) p, N c.text → R s t → L.filter s c p = L'.filter t c p
  addCollection : ∀ s t (c : Element), N c.text → R s t → OutRel R (L.addCollection s c) (L'.addCollection t c)
  addEntries : ∀ s t (c : Element) es, N c.text → R s t → (L.addEntries s c es).1 = (L'.addEntries t c es).1 ∧
    R (L.addEntries s c es).2.1 (L'.addEntries t c es).2.1

variable {N : Str → Prop} {R : σ → τ → Prop} {L : LigOps σ} {L' : LigOps τ}

theorem letStore_on (hL : RelOn N R L L') (name : Element) (hn : N name.text) (n : Network) (s : σ) (t : τ) (h : R s t) :
    OutRel R (letStore L name n s) (letStore L' name n t) := by
  unfold letStore
  obtain ⟨e1, r1⟩ := hL.addCollection s t name hn h
  rcases h1 : L.addCollection s name with ⟨a, s1⟩
  rcases h2 : L'.addCollection t name with ⟨b, t1⟩
  rw [h1, h2] at e1 r1
  simp only at e1 r1
  subst e1
  obtain ⟨e2, r2⟩ := hL.addEntries s1 t1 name n hn r1
  rcases h3 : L.addEntries s1 name n with ⟨c, s2, es⟩
  rcases h4 : L'.addEntries t1 name n with ⟨d, t2, es'⟩
  rw [h3, h4] at e2 r2
  simp only at e2 r2
  subst e2
  cases a <;> simp only [h3, h4] <;> first | exact ⟨rfl, r1⟩ | (cases c <;> exact ⟨rfl, r2⟩)

/-- The command is registered under its name. -/
theorem builtin_name {n : Str} {d : Str} {b : Builtin} (h : (common : Commands σ).get? n = some ⟨d, .builtin b⟩) :
    (b = .let_ → n = lit "let") ∧ (b = .read → n = lit "read") ∧ (b = .filter → n = lit "filter") := by
  have hm : (n, (⟨d, .builtin b⟩ : Command σ)) ∈ (common : Commands σ) := mem_of_lookup h
  simp only [common, List.mem_cons, Prod.mk.injEq, List.not_mem_nil, or_false, Command.mk.injEq, CmdFun.builtin.injEq] at hm
  rcases hm with ⟨hn, _, rfl⟩ | ⟨hn, _, rfl⟩ | ⟨hn, _, rfl⟩ | ⟨hn, _, rfl⟩ | ⟨hn, _, rfl⟩ | ⟨hn, _, rfl⟩ | ⟨hn, _, rfl⟩ |
    ⟨hn, _, rfl⟩ | ⟨hn, _, rfl⟩ <;> simp [hn]

/-- The collections a command with these arguments can use. -/
def FunUses (b : Builtin) (args : List Value) (name : Element) : Prop :=
  (b ∈ [Builtin.let_, .read, .filter] ∧ ∃ rest, args = .element name :: rest) ∨ UsesInList name args

set_option linter.unusedSectionVars false
variable (hL : RelOn N R L L')
include hL

mutual
theorem evalArg_on (v : Value) (hv : ∀ n, UsesIn n v → N n.text) :
    ∀ s t, R s t → OutRel R (evalArg L common v s) (evalArg L' common v t) := by
  intro s t h
  match v with
  | .quote q => rw [evalArg, evalArg]; exact runQuote_on q hv s t h
  | .element e => simp only [evalArg]; exact ⟨rfl, h⟩
  | .network n => simp only [evalArg]; exact ⟨rfl, h⟩

theorem runQuote_on (q : List Value) (hq : ∀ n, UsesIn n (.quote q) → N n.text) :
    ∀ s t, R s t → OutRel R (runQuote L common q s) (runQuote L' common q t) := by
  intro s t h
  match q with
  | [] => simp only [runQuote]; exact ⟨rfl, h⟩
  | .element name :: args =>
    simp only [runQuote]
    rcases common_get_both (σ := σ) (τ := τ) name.text with ⟨b, d, h1, h2⟩ | ⟨h1, h2⟩
    · rw [h1, h2]
      refine runFun_on args b (fun n hn => hq n ?_) s t h
      simp only [UsesIn, UsesInList]
      rcases hn with ⟨hb, rest, rfl⟩ | hn
      · left
        refine ⟨name, _, rfl, ?_, rest, rfl⟩
        have hbn := builtin_name h1
        simp only [List.mem_cons, List.not_mem_nil, or_false] at hb ⊢
        rcases hb with hb | hb | hb
        · exact .inl (hbn.1 hb)
        · exact .inr (.inl (hbn.2.1 hb))
        · exact .inr (.inr (hbn.2.2 hb))
      · exact .inr (.inr hn)
    · rw [h1, h2]; exact ⟨rfl, h⟩
  | .quote _ :: _ => simp only [runQuote]; exact ⟨rfl, h⟩
  | .network _ :: _ => simp only [runQuote]; exact ⟨rfl, h⟩

theorem runFun_on (args : List Value) : ∀ b : Builtin, (∀ n, FunUses b args n → N n.text) → ∀ s t, R s t →
    OutRel R (runFun L common (.builtin b) args s) (runFun L' common (.builtin b) args t) := by
  intro b ha s t h
  match b with
  | .docs => simp only [runFun]; exact ⟨docs_common_both args, h⟩
  | .union => simp only [runFun]; exact ⟨rfl, h⟩
  | .id => simp only [runFun]; exact ⟨rfl, h⟩
  | .ignore => simp only [runFun]; exact ⟨rfl, h⟩
  | .read =>
    simp only [runFun]
    refine ⟨?_, h⟩
    simp only [read]
    split
    · rename_i name
      rw [hL.entries s t name (ha name (.inl ⟨by simp, _, rfl⟩)) h]
    · rfl
  | .filter =>
    simp only [runFun]
    refine ⟨?_, h⟩
    simp only [filterCmd]
    split
    · rename_i c f g k
      rw [hL.filter s t c _ (ha c (.inl ⟨by simp, _, rfl⟩)) h]
    · rfl
  | .assertEqual =>
    match args with
    | [left, right] =>
      simp only [runFun]
      obtain ⟨e1, r1⟩ := evalArg_on left (fun n hn => ha n (.inr (by simp only [UsesInList]; exact .inl hn))) s t h
      rcases h1 : evalArg L common left s with ⟨a, s1⟩
      rcases h2 : evalArg L' common left t with ⟨b, t1⟩
      rw [h1, h2] at e1 r1
      simp only at e1 r1
      subst e1
      cases a with
      | ok l =>
        obtain ⟨e2, r2⟩ := evalArg_on right (fun n hn => ha n (.inr (by simp only [UsesInList]; exact .inr (.inl hn)))) s1 t1 r1
        rcases h3 : evalArg L common right s1 with ⟨c, s2⟩
        rcases h4 : evalArg L' common right t1 with ⟨d, t2⟩
        rw [h3, h4] at e2 r2
        simp only at e2 r2
        subst e2
        simp only [h3, h4]
        cases c <;> exact ⟨rfl, r2⟩
      | err m => exact ⟨rfl, r1⟩
      | panic => exact ⟨rfl, r1⟩
    | [] => simp only [runFun]; exact ⟨rfl, h⟩
    | [_] => simp only [runFun]; exact ⟨rfl, h⟩
    | _ :: _ :: _ :: _ => simp only [runFun]; exact ⟨rfl, h⟩
  | .assertFail =>
    match args with
    | [.quote q] =>
      simp only [runFun]
      obtain ⟨e1, r1⟩ := evalArg_on (.quote q) (fun n hn => ha n (.inr (by simp only [UsesInList]; exact .inl hn))) s t h
      rcases h1 : evalArg L common (.quote q) s with ⟨a, s1⟩
      rcases h2 : evalArg L' common (.quote q) t with ⟨b, t1⟩
      rw [h1, h2] at e1 r1
      simp only at e1 r1
      subst e1
      cases a <;> exact ⟨rfl, r1⟩
    | [.element _] => simp only [runFun]; exact ⟨rfl, h⟩
    | [.network _] => simp only [runFun]; exact ⟨rfl, h⟩
    | [] => simp only [runFun]; exact ⟨rfl, h⟩
    | _ :: _ :: _ => simp only [runFun]; exact ⟨rfl, h⟩
  | .let_ =>
    match args with
    | [.element name, .network n] =>
      simp only [runFun]; exact letStore_on hL name (ha name (.inl ⟨by simp, _, rfl⟩)) n s t h
    | [.element name, .quote q] =>
      simp only [runFun]
      obtain ⟨e1, r1⟩ := evalArg_on (.quote q) (fun n hn => ha n (.inr (by simp only [UsesInList]; exact .inr (.inl hn)))) s t h
      rcases h1 : evalArg L common (.quote q) s with ⟨a, s1⟩
      rcases h2 : evalArg L' common (.quote q) t with ⟨b, t1⟩
      rw [h1, h2] at e1 r1
      simp only at e1 r1
      subst e1
      cases a with
      | ok v =>
        cases v with
        | network n => exact letStore_on hL name (ha name (.inl ⟨by simp, _, rfl⟩)) n s1 t1 r1
        | element e => exact ⟨rfl, r1⟩
        | quote q => exact ⟨rfl, r1⟩
      | err m => exact ⟨rfl, r1⟩
      | panic => exact ⟨rfl, r1⟩
    | [.element _, .element _] => simp only [runFun]; exact ⟨rfl, h⟩
    | [.quote _, _] => simp only [runFun]; exact ⟨rfl, h⟩
    | [.network _, _] => simp only [runFun]; exact ⟨rfl, h⟩
    | [] => simp only [runFun]; exact ⟨rfl, h⟩
    | [_] => simp only [runFun]; exact ⟨rfl, h⟩
    | _ :: _ :: _ :: _ => simp only [runFun]; exact ⟨rfl, h⟩
end

theorem runCallsLoop_on (calls : List Call) : (∀ c ∈ calls, ∀ n, CallUses n c → N n.text) → ∀ (v : Value) s t, R s t →
    OutRel R (runCallsLoop L common calls v s) (runCallsLoop L' common calls v t) := by
  induction calls with
  | nil => intro _ v s t h; exact ⟨rfl, h⟩
  | cons c cs ih =>
    intro hu v s t h
    simp only [runCallsLoop]
    have hc : OutRel R (runCall L common c s) (runCall L' common c t) := by
      have := runQuote_on hL (.element c.name :: c.args) (fun n hn => hu c List.mem_cons_self n (by
        simp only [UsesIn, UsesInList, List.cons.injEq, Value.element.injEq, false_or] at hn
        rcases hn with ⟨e, args, ⟨rfl, rfl⟩, h⟩ | h
        · exact .inl h
        · exact .inr h)) s t h
      simpa only [runQuote, runCall] using this
    obtain ⟨e1, r1⟩ := hc
    rcases h1 : runCall L common c s with ⟨a, s1⟩
    rcases h2 : runCall L' common c t with ⟨b, t1⟩
    rw [h1, h2] at e1 r1
    simp only at e1 r1
    subst e1
    cases a with
    | ok w => exact ih (fun c h => hu c (List.mem_cons_of_mem _ h)) w s1 t1 r1
    | err m => exact ⟨rfl, r1⟩
    | panic => exact ⟨rfl, r1⟩

end Eval
end Verif
