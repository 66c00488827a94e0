import Verif.Spec.Template
import Verif.Proofs.Parser
/-!
# Filling blanks commutes with parsing
-/
namespace Verif
namespace Parser
open Spec

/-- Fill in the blanks of a token. -/
def fillTok (x : Nat → Element) : Token → Token
  | .element e => .element (fillElement x e)
  | t => t

theorem fillEntry_mk (x : Nat → Element) (a b c : Element) :
    fillEntry x (mkEntry a b c) = mkEntry (fillElement x a) (fillElement x b) (fillElement x c) := by
  have hm : ∀ a b c, mkEntry a b c = spelled a b c := fun _ _ _ => rfl
  by_cases h1 : b = .of colonS
  · subst h1; simp [mkEntry, fillEntry, fillElement]
  · by_cases h2 : b = .of notColonS
    · subst h2
      have hne : ¬ lit "¬:" = lit ":" := by decide
      simp [mkEntry, fillEntry, fillElement, colonS, notColonS, hne]
    · rw [hm (fillElement x a)]
      simp [mkEntry, fillEntry, h1, h2]

theorem map_insert {α β : Type} [SOrd α] [SOrd β] (f : α → β) (n : BSet α) (e : α) : (n.insert e).map f = (n.map f).insert (f e) := by
  apply BSet.ext; intro y; simp only [BSet.mem_map, BSet.mem_insert]
  constructor
  · rintro ⟨z, rfl | hz, rfl⟩
    · exact .inl rfl
    · exact .inr ⟨z, hz, rfl⟩
  · rintro (rfl | ⟨z, hz, rfl⟩)
    · exact ⟨e, .inl rfl, rfl⟩
    · exact ⟨z, .inr hz, rfl⟩

theorem net_fill (x : Nat → Element) : ∀ (n : Nat) (ts : List Token) (r : Network), ts.length ≤ n →
    readNetwork (ts.map (fillTok x)) (r.map (fillEntry x)) =
      (readNetwork ts r).map (fun p => (p.1.map (fillEntry x), p.2.map (fillTok x))) := by
  intro n
  induction n with
  | zero =>
    intro ts r h
    cases ts with
    | nil => simp [readNetwork, Res.map]
    | cons => simp at h
  | succ n ih =>
    intro ts r h
    cases ts with
    | nil => simp [readNetwork, Res.map]
    | cons t1 ts =>
      cases t1 <;> try (simp [readNetwork, Res.map, fillTok]; done)
      rename_i a
      cases ts with
      | nil => simp [readNetwork, Res.map, fillTok]
      | cons t2 ts =>
        cases t2 <;> try (simp [readNetwork, Res.map, fillTok]; done)
        rename_i b
        cases ts with
        | nil => simp [readNetwork, Res.map, fillTok]
        | cons t3 ts =>
          cases t3 <;> try (simp [readNetwork, Res.map, fillTok]; done)
          rename_i c
          cases ts with
          | nil => simp [readNetwork, Res.map, fillTok]
          | cons t4 ts =>
            cases t4 <;> try (simp [readNetwork, Res.map, fillTok]; done)
            · simp [readNetwork, Res.map, fillTok, map_insert, fillEntry_mk]
            · simp only [List.map_cons, fillTok, readNetwork]
              rw [← fillEntry_mk, ← map_insert, ih _ _ (by simp at h; omega)]

theorem fillValues_map (x : Nat → Element) : ∀ vs, fillValues x vs = vs.map (fillValue x)
  | [] => by simp [fillValues]
  | v :: vs => by simp [fillValues, fillValues_map x vs]

theorem quote_fill (x : Nat → Element) : ∀ (f : Nat) (ts : List Token) (vs : List Value),
    readQuote f (ts.map (fillTok x)) (vs.map (fillValue x)) =
      (readQuote f ts vs).map (fun p => (p.1.map (fillValue x), p.2.map (fillTok x))) := by
  intro f
  induction f with
  | zero => intro ts vs; rfl
  | succ f ih =>
    intro ts vs
    cases ts with
    | nil => simp [readQuote, Res.map]
    | cons t ts =>
      cases t <;> try (simp [readQuote, Res.map, fillTok]; done)
      · simp only [List.map_cons, fillTok, readQuote]
        have := net_fill x _ ts ∅ (Nat.le_refl _)
        rw [show ((∅ : Network).map (fillEntry x)) = ∅ from rfl] at this
        rw [this]
        cases hr : readNetwork ts ∅ with
        | ok p =>
          have := ih p.2 (vs ++ [.network p.1])
          rw [List.map_append, List.map_singleton, fillValue] at this
          exact this
        | err m => rfl
        | panic => rfl
      · simp only [List.map_cons, fillTok, readQuote]
        rw [← ih]; simp [fillValue]

/-- The same kind of outcome, with the second value the image of the first. -/
def Like {α β : Type} (g : α → β) : Res α → Res β → Prop
  | .ok a, .ok b => b = g a
  | .err _, .err _ => True
  | .panic, .panic => True
  | _, _ => False

theorem call_fill (x : Nat → Element) : ∀ (f : Nat) (ts : List Token) (vs : List Value),
    Like (fun p : List Value × List Token => (p.1.map (fillValue x), p.2.map (fillTok x))) (readCall f ts vs)
      (readCall f (ts.map (fillTok x)) (vs.map (fillValue x))) := by
  intro f
  induction f with
  | zero => intro ts vs; trivial
  | succ f ih =>
    intro ts vs
    cases ts with
    | nil => simp [readCall, Like]
    | cons t ts =>
      cases t <;> try (simp [readCall, Like, fillTok]; done)
      · simp only [List.map_cons, fillTok, readCall]
        have := ih ts (vs ++ [.element (.of ‹_›)])
        simpa [fillValue, fillElement] using this
      · simp only [List.map_cons, fillTok, readCall, List.length_map]
        have := quote_fill x (ts.length + 1) ts []
        rw [List.map_nil] at this
        rw [this]
        cases hr : readQuote (ts.length + 1) ts [] with
        | ok p =>
          simp only [Res.map]
          have := ih p.2 (vs ++ [.quote p.1])
          simpa [fillValue, fillValues_map] using this
        | err m => trivial
        | panic => trivial
      · simp only [List.map_cons, fillTok, readCall]
        have := net_fill x _ ts ∅ (Nat.le_refl _)
        rw [show ((∅ : Network).map (fillEntry x)) = ∅ from rfl] at this
        rw [this]
        cases hr : readNetwork ts ∅ with
        | ok p =>
          simp only [Res.map]
          have := ih p.2 (vs ++ [.network p.1])
          simpa [fillValue] using this
        | err m => trivial
        | panic => trivial
      · simp only [List.map_cons, fillTok, readCall]
        have := ih ts (vs ++ [.element ‹_›])
        simpa [fillValue] using this

theorem parseLoop_fill (x : Nat → Element) : ∀ (f : Nat) (ts : List Token) (cs : List Call),
    Like (fun l : List Call => l.map (fillCall x)) (parseLoop f ts cs) (parseLoop f (ts.map (fillTok x)) (cs.map (fillCall x))) := by
  intro f
  induction f with
  | zero => intro ts cs; trivial
  | succ f ih =>
    intro ts cs
    by_cases hne : ts = []
    · subst hne; simp [parseLoop, Like]
    · rw [parse_step hne, parse_step (by simpa using hne)]
      rw [List.length_map]
      have := call_fill x (ts.length + 1) ts []
      rw [List.map_nil] at this
      generalize readCall (ts.length + 1) ts [] = r1 at *
      generalize readCall (ts.length + 1) (ts.map (fillTok x)) [] = r2 at *
      cases r1 <;> cases r2 <;> try (first | trivial | exact this.elim)
      rename_i p q
      obtain ⟨vs, rest⟩ := p
      obtain ⟨ws, rest'⟩ := q
      cases this
      cases vs with
      | nil => trivial
      | cons v vs =>
        cases v with
        | element e =>
          have := ih rest (cs ++ [⟨e, vs⟩])
          simpa [fillValue, fillCall, fillValues_map] using this
        | quote => simp [fillValue, Like]
        | network => simp [fillValue, Like]

theorem parse_fill (x : Nat → Element) (ts : List Token) :
    Like (fun l : List Call => l.map (fillCall x)) (parse ts) (parse (ts.map (fillTok x))) := by
  have := parseLoop_fill x (ts.length + 1) ts []
  rw [parse, parse, List.length_map]
  simpa using this

end Parser
end Verif
namespace Verif
namespace Parser
open Spec

/-! ## Each blank stays in one place -/

theorem sum_zero {α : Type} (f : α → Nat) : ∀ l : List α, (l.map f).sum = 0 ↔ ∀ a ∈ l, f a = 0
  | [] => by simp
  | a :: l => by simp [sum_zero f l]

theorem sum_erase {α : Type} [DecidableEq α] (f : α → Nat) (a : α) : ∀ l : List α, a ∈ l → (l.map f).sum = f a + ((l.erase a).map f).sum
  | [], h => by simp at h
  | b :: l, h => by
    by_cases hb : b = a
    · subst hb; simp
    · have hl : a ∈ l := by
        rcases List.mem_cons.mp h with h | h
        · exact absurd h.symm hb
        · exact h
      have := sum_erase f a l hl
      rw [List.erase_cons, if_neg (by simpa using hb)]
      simp only [List.map_cons, List.sum_cons]
      omega

theorem sum_mem {α : Type} [DecidableEq α] (f : α → Nat) {a : α} {l : List α} (h : a ∈ l) : f a ≤ (l.map f).sum := by
  rw [sum_erase f a l h]; omega

/-- Removing duplicates does not change a total of at most one. -/
theorem sum_dedup {α : Type} [DecidableEq α] (f : α → Nat) : ∀ (es l : List α), l.Nodup → (∀ a, a ∈ l ↔ a ∈ es) → (es.map f).sum ≤ 1 →
    (l.map f).sum = (es.map f).sum
  | [], l, _, h, _ => by
    cases l with
    | nil => rfl
    | cons a l => exact absurd ((h a).mp List.mem_cons_self) (by simp)
  | e :: es, l, hn, h, hs => by
    simp only [List.map_cons, List.sum_cons] at hs ⊢
    by_cases he : e ∈ es
    · have h1 := sum_mem f he
      have : f e = 0 := by omega
      rw [this, Nat.zero_add]
      refine sum_dedup f es l hn (fun a => ?_) (by omega)
      rw [h a, List.mem_cons]
      constructor
      · rintro (rfl | h)
        · exact he
        · exact h
      · exact .inr
    · have hel : e ∈ l := (h e).mpr List.mem_cons_self
      rw [sum_erase f e l hel]
      congr 1
      refine sum_dedup f es (l.erase e) (hn.erase e) (fun a => ?_) (by omega)
      rw [hn.mem_erase_iff, h a, List.mem_cons]
      constructor
      · rintro ⟨h1, h2 | h2⟩
        · exact absurd h2 h1
        · exact h2
      · intro h'; exact ⟨by rintro rfl; exact he h', .inr h'⟩

/-- How often blank `i` occurs in tokens. -/
def inTok (i : Nat) : Token → Nat
  | .element e => inElement i e
  | _ => 0
def inToks (i : Nat) (ts : List Token) : Nat := (ts.map (inTok i)).sum

theorem inToks_append (i : Nat) (a b : List Token) : inToks i (a ++ b) = inToks i a + inToks i b := by simp [inToks]
theorem inToks_cons (i : Nat) (t : Token) (b : List Token) : inToks i (t :: b) = inTok i t + inToks i b := by simp [inToks]
theorem inToks_nil (i : Nat) : inToks i [] = 0 := rfl

theorem inEntry_reads {i : Nat} {a b c : Element} {e : Entry} (h : ReadsEntry a b c e) :
    inEntry i e = inElement i a + inElement i b + inElement i c := by
  have h1 : inElement i ⟨lit ":", none, none⟩ = 0 := by rw [inElement, if_neg]; intro h; cases h
  have h2 : inElement i ⟨lit "¬:", none, none⟩ = 0 := by rw [inElement, if_neg]; intro h; cases h
  cases h with
  | «extends» => simp only [inEntry, h1]; omega
  | notExtends => simp only [inEntry, h2]; omega
  | role => simp only [inEntry]; omega

theorem inToks_entries {i : Nat} {ts : List Token} {es : List Entry} (h : Entries ts es) : (es.map (inEntry i)).sum = inToks i ts := by
  induction h with
  | close => rfl
  | last h => simp [inToks, inTok, inEntry_reads h]; omega
  | more h _ ih => simp only [List.map_cons, List.sum_cons, ih, inToks_cons, inTok, inEntry_reads h]; omega

theorem inToks_network {i : Nat} {ts : List Token} {n : Network} (h : NetworkLit ts n) (hl : inToks i ts ≤ 1) :
    inValue i (.network n) = inToks i ts := by
  obtain ⟨body, es, rfl, he, hm⟩ := h
  rw [inToks_cons, ← inToks_entries he] at *
  simp only [inTok, Nat.zero_add] at *
  rw [inValue]
  exact sum_dedup _ es n.toList n.nodup (fun a => hm a) hl

theorem inToks_items {i : Nat} {ts : List Token} {vs : List Value} (h : Items ts vs) (hl : inToks i ts ≤ 1) : inValues i vs = inToks i ts := by
  induction h with
  | close => simp [inValues, inToks, inTok]
  | element _ ih =>
    rw [inToks_cons] at *
    rw [inValues, inValue, ih (by omega), inTok]
  | network hn _ ih =>
    rw [inToks_append] at *
    rw [inValues, inToks_network hn (by omega), ih (by omega)]

theorem inToks_value {i : Nat} {ts : List Token} {v : Value} (h : ValueLit ts v) (hl : inToks i ts ≤ 1) : inValue i v = inToks i ts := by
  cases h with
  | element => simp [inValue, inToks, inTok]
  | string s =>
    have : inElement i ⟨s, none, none⟩ = 0 := by rw [inElement, if_neg]; intro h; cases h
    simp [inValue, inToks, inTok, this]
  | network h => exact inToks_network h hl
  | quote h =>
    rw [inToks_cons] at *
    simp only [inTok, Nat.zero_add] at *
    rw [inValue, inToks_items h hl]

theorem inToks_values {i : Nat} {ts : List Token} {vs : List Value} (h : Values ts vs) (hl : inToks i ts ≤ 1) : inValues i vs = inToks i ts := by
  induction h with
  | nil => simp [inValues, inToks]
  | cons h _ ih =>
    rw [inToks_append] at *
    rw [inValues, inToks_value h (by omega), ih (by omega)]

theorem inToks_call {i : Nat} {ts : List Token} {c : Call} (h : CallLit ts c) (hl : inToks i ts ≤ 1) :
    inElement i c.name + inValues i c.args = inToks i ts := by
  have := inToks_values h hl
  rw [inValues, inValue] at this
  exact this

theorem inToks_program {i : Nat} {ts : List Token} {cs : List Call} (h : Program ts cs) (hl : inToks i ts ≤ 1) : inCalls i cs = inToks i ts := by
  induction h with
  | nil => rfl
  | last h => simp [inCalls, inToks_call h hl]
  | more h _ ih =>
    rw [inToks_append, inToks_cons] at *
    have := ih (by omega)
    rw [inCalls] at *
    simp only [List.map_cons, List.sum_cons, this, inTok]
    rw [inToks_call h (by omega)]; omega

end Parser
end Verif
