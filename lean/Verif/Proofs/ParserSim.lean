import Verif.Proofs.Parser
/-!
# Replacing one network literal by another with the same entries, anywhere in a token list
-/
namespace Verif
namespace Parser
open Spec

theorem net_len {ts : List Token} {acc n : Network} {rest : List Token} (h : readNetwork ts acc = .ok (n, rest)) :
    rest.length < ts.length := by
  obtain ⟨pre, es, rfl, he, _⟩ := net_sound ts acc h
  have := entries_ne he
  simp; omega

theorem quote_len {f : Nat} {ts : List Token} {acc vs : List Value} {rest : List Token} (h : readQuote f ts acc = .ok (vs, rest)) :
    rest.length < ts.length := by
  obtain ⟨pre, es, rfl, he, _⟩ := quote_sound f ts acc vs rest h
  have := items_ne he
  simp; omega

theorem readQuote_fuel : ∀ (n f g : Nat) (ts : List Token) (acc : List Value), ts.length ≤ n → ts.length < f → ts.length < g →
    readQuote f ts acc = readQuote g ts acc := by
  intro n
  induction n with
  | zero =>
    intro f g ts acc hn hf hg
    obtain ⟨f, rfl⟩ : ∃ x, f = x + 1 := ⟨f - 1, by omega⟩
    obtain ⟨g, rfl⟩ : ∃ x, g = x + 1 := ⟨g - 1, by omega⟩
    cases ts with
    | nil => rfl
    | cons => simp at hn
  | succ n ih =>
    intro f g ts acc hn hf hg
    obtain ⟨f, rfl⟩ : ∃ x, f = x + 1 := ⟨f - 1, by omega⟩
    obtain ⟨g, rfl⟩ : ∃ x, g = x + 1 := ⟨g - 1, by omega⟩
    rw [readQuote.eq_def, readQuote.eq_def (g + 1)]
    simp only
    split
    · simp at hn hf hg; exact ih _ _ _ _ (by omega) (by omega) (by omega)
    · rfl
    · simp at hn hf hg
      split
      · rename_i e; have := net_len e; exact ih _ _ _ _ (by omega) (by omega) (by omega)
      · rfl
      · rfl
    · rfl

theorem readCall_fuel : ∀ (n f g : Nat) (ts : List Token) (acc : List Value), ts.length ≤ n → ts.length < f → ts.length < g →
    readCall f ts acc = readCall g ts acc := by
  intro n
  induction n with
  | zero =>
    intro f g ts acc hn hf hg
    obtain ⟨f, rfl⟩ : ∃ x, f = x + 1 := ⟨f - 1, by omega⟩
    obtain ⟨g, rfl⟩ : ∃ x, g = x + 1 := ⟨g - 1, by omega⟩
    cases ts with
    | nil => rfl
    | cons => simp at hn
  | succ n ih =>
    intro f g ts acc hn hf hg
    obtain ⟨f, rfl⟩ : ∃ x, f = x + 1 := ⟨f - 1, by omega⟩
    obtain ⟨g, rfl⟩ : ∃ x, g = x + 1 := ⟨g - 1, by omega⟩
    rw [readCall.eq_def, readCall.eq_def (g + 1)]
    simp only
    split
    · rfl
    · simp at hn hf hg; exact ih _ _ _ _ (by omega) (by omega) (by omega)
    · simp at hn hf hg; exact ih _ _ _ _ (by omega) (by omega) (by omega)
    · rfl
    · simp at hn hf hg
      split
      · rename_i e; have := net_len e; exact ih _ _ _ _ (by omega) (by omega) (by omega)
      · rfl
    · simp at hn hf hg
      split
      · rename_i e; have := quote_len e; exact ih _ _ _ _ (by omega) (by omega) (by omega)
      · rfl
    · rfl

theorem call_len : ∀ (f : Nat) (ts : List Token) (acc cur : List Value) (rest : List Token), readCall f ts acc = .ok (cur, rest) →
    rest.length ≤ ts.length - 1 := by
  intro f
  induction f with
  | zero => intro ts acc cur rest h; cases h
  | succ f ih =>
    intro ts acc cur rest h
    rw [readCall.eq_def] at h
    simp only at h
    split at h
    · cases h; simp
    · have := ih _ _ _ _ h; simp; omega
    · have := ih _ _ _ _ h; simp; omega
    · cases h; simp
    · split at h
      · rename_i e; have := net_len e; have := ih _ _ _ _ h; simp; omega
      · cases h
    · split at h
      · rename_i e; have := quote_len e; have := ih _ _ _ _ h; simp; omega
      · cases h
    · cases h

theorem parseLoop_fuel : ∀ (n f g : Nat) (ts : List Token) (acc : List Call), ts.length ≤ n → ts.length < f → ts.length < g →
    parseLoop f ts acc = parseLoop g ts acc := by
  intro n
  induction n with
  | zero =>
    intro f g ts acc hn hf hg
    obtain ⟨f, rfl⟩ : ∃ x, f = x + 1 := ⟨f - 1, by omega⟩
    obtain ⟨g, rfl⟩ : ∃ x, g = x + 1 := ⟨g - 1, by omega⟩
    cases ts with
    | nil => rfl
    | cons => simp at hn
  | succ n ih =>
    intro f g ts acc hn hf hg
    obtain ⟨f, rfl⟩ : ∃ x, f = x + 1 := ⟨f - 1, by omega⟩
    obtain ⟨g, rfl⟩ : ∃ x, g = x + 1 := ⟨g - 1, by omega⟩
    by_cases hne : ts = []
    · subst hne; rfl
    · rw [parse_step hne, parse_step hne]
      have : 0 < ts.length := List.length_pos_iff.mpr hne
      split
      · rfl
      · rfl
      · rename_i e
        have := call_len _ _ _ _ _ e
        split
        · exact ih _ _ _ _ (by omega) (by omega) (by omega)
        · rfl

/-- Two outcomes are the same, or stop at the same place before the replaced literal. -/
def Sim {α : Type} (X Y : List Token) (n : Nat) (r1 r2 : Res (α × List Token)) : Prop :=
  r1 = r2 ∨ ∃ a pre, pre.length < n ∧ r1 = .ok (a, pre ++ X) ∧ r2 = .ok (a, pre ++ Y)

theorem Sim.mono {α : Type} {X Y : List Token} {n m : Nat} {r1 r2 : Res (α × List Token)} (h : Sim X Y n r1 r2) (hnm : n ≤ m) : Sim X Y m r1 r2 := by
  rcases h with h | ⟨a, pre, hl, h1, h2⟩
  · exact .inl h
  · exact .inr ⟨a, pre, by omega, h1, h2⟩

section
variable {X Y post : List Token} {es fs : List Entry}

theorem sim_net : ∀ (n : Nat) (pre : List Token) (acc : Network), pre.length ≤ n →
    Sim (.openBrace :: (X ++ post)) (.openBrace :: (Y ++ post)) pre.length
      (readNetwork (pre ++ .openBrace :: (X ++ post)) acc) (readNetwork (pre ++ .openBrace :: (Y ++ post)) acc) := by
  intro n
  induction n with
  | zero =>
    intro pre acc h
    cases pre with
    | nil => left; simp [readNetwork]
    | cons => simp at h
  | succ n ih =>
    intro pre acc h
    match pre, h with
    | [], _ => left; simp [readNetwork]
    | t :: pre1, h =>
      cases t
      case closeBrace => right; exact ⟨acc, pre1, by simp, by simp [readNetwork], by simp [readNetwork]⟩
      case element a =>
        match pre1, h with
        | [], _ => left; simp [readNetwork]
        | u :: pre2, h =>
          cases u
          case element b =>
            match pre2, h with
            | [], _ => left; simp [readNetwork]
            | v :: pre3, h =>
              cases v
              case element c =>
                match pre3, h with
                | [], _ => left; simp [readNetwork]
                | w :: pre4, h =>
                  cases w
                  case comma =>
                    simp only [List.cons_append, readNetwork]
                    exact (ih pre4 _ (by simp at h; omega)).mono (by simp; omega)
                  case closeBrace => right; exact ⟨_, pre4, by simp; omega, by simp only [List.cons_append, readNetwork]; rfl, by simp only [List.cons_append, readNetwork]⟩
                  all_goals (left; simp [readNetwork])
              all_goals (left; simp [readNetwork])
          all_goals (left; simp [readNetwork])
      all_goals (left; simp [readNetwork])

theorem sim_quote (hX : Entries X es) (hY : Entries Y fs) (hm : ∀ e, e ∈ es ↔ e ∈ fs) :
    ∀ (n : Nat) (pre : List Token) (f g : Nat) (acc : List Value), pre.length ≤ n →
    (pre ++ .openBrace :: (X ++ post)).length < f → (pre ++ .openBrace :: (Y ++ post)).length < g →
    Sim (.openBrace :: (X ++ post)) (.openBrace :: (Y ++ post)) pre.length
      (readQuote f (pre ++ .openBrace :: (X ++ post)) acc) (readQuote g (pre ++ .openBrace :: (Y ++ post)) acc) := by
  have hset : (∅ : Network).insertAll es = (∅ : Network).insertAll fs := BSet.ext (by intro e; simp [hm])
  have base : ∀ (f g : Nat) (acc : List Value), (Token.openBrace :: (X ++ post)).length < f → (Token.openBrace :: (Y ++ post)).length < g →
      readQuote f (.openBrace :: (X ++ post)) acc = readQuote g (.openBrace :: (Y ++ post)) acc := by
    intro f g acc hf hg
    obtain ⟨f, rfl⟩ : ∃ x, f = x + 1 := ⟨f - 1, by omega⟩
    obtain ⟨g, rfl⟩ : ∃ x, g = x + 1 := ⟨g - 1, by omega⟩
    simp only [readQuote, net_complete hX, net_complete hY, hset]
    simp at hf hg
    exact readQuote_fuel _ _ _ _ _ (Nat.le_refl _) (by omega) (by omega)
  intro n
  induction n with
  | zero =>
    intro pre f g acc h hf hg
    cases pre with
    | nil => exact .inl (base f g acc hf hg)
    | cons => simp at h
  | succ n ih =>
    intro pre f g acc h hf hg
    cases pre with
    | nil => exact .inl (base f g acc hf hg)
    | cons t pre =>
      obtain ⟨f, rfl⟩ : ∃ x, f = x + 1 := ⟨f - 1, by omega⟩
      obtain ⟨g, rfl⟩ : ∃ x, g = x + 1 := ⟨g - 1, by omega⟩
      simp at h hf hg
      cases t
      case element e =>
        simp only [List.cons_append, readQuote]
        exact (ih pre f g _ h (by simp; omega) (by simp; omega)).mono (by simp)
      case closeParen => right; exact ⟨acc, pre, by simp, by simp [readQuote], by simp [readQuote]⟩
      case openBrace =>
        simp only [List.cons_append, readQuote]
        rcases sim_net (X := X) (Y := Y) (post := post) _ pre ∅ (Nat.le_refl _) with e | ⟨a, pre', hl, e1, e2⟩
        · rw [e]
          left
          split
          · rename_i e'
            have h1 := net_len e'
            rw [← e] at e'
            have h2 := net_len e'
            simp at h1 h2
            exact readQuote_fuel _ _ _ _ _ (Nat.le_refl _) (by omega) (by omega)
          · rfl
          · rfl
        · rw [e1, e2]
          exact (ih pre' f g _ (by omega) (by simp; omega) (by simp; omega)).mono (by simp; omega)
      all_goals (left; simp [readQuote])

theorem sim_call (hX : Entries X es) (hY : Entries Y fs) (hm : ∀ e, e ∈ es ↔ e ∈ fs) :
    ∀ (n : Nat) (pre : List Token) (f g : Nat) (acc : List Value), pre.length ≤ n →
    (pre ++ .openBrace :: (X ++ post)).length < f → (pre ++ .openBrace :: (Y ++ post)).length < g →
    Sim (.openBrace :: (X ++ post)) (.openBrace :: (Y ++ post)) pre.length
      (readCall f (pre ++ .openBrace :: (X ++ post)) acc) (readCall g (pre ++ .openBrace :: (Y ++ post)) acc) := by
  have hset : (∅ : Network).insertAll es = (∅ : Network).insertAll fs := BSet.ext (by intro e; simp [hm])
  have base : ∀ (f g : Nat) (acc : List Value), (Token.openBrace :: (X ++ post)).length < f → (Token.openBrace :: (Y ++ post)).length < g →
      readCall f (.openBrace :: (X ++ post)) acc = readCall g (.openBrace :: (Y ++ post)) acc := by
    intro f g acc hf hg
    obtain ⟨f, rfl⟩ : ∃ x, f = x + 1 := ⟨f - 1, by omega⟩
    obtain ⟨g, rfl⟩ : ∃ x, g = x + 1 := ⟨g - 1, by omega⟩
    simp only [readCall, net_complete hX, net_complete hY, hset]
    simp at hf hg
    exact readCall_fuel _ _ _ _ _ (Nat.le_refl _) (by omega) (by omega)
  intro n
  induction n with
  | zero =>
    intro pre f g acc h hf hg
    cases pre with
    | nil => exact .inl (base f g acc hf hg)
    | cons => simp at h
  | succ n ih =>
    intro pre f g acc h hf hg
    cases pre with
    | nil => exact .inl (base f g acc hf hg)
    | cons t pre =>
      obtain ⟨f, rfl⟩ : ∃ x, f = x + 1 := ⟨f - 1, by omega⟩
      obtain ⟨g, rfl⟩ : ∃ x, g = x + 1 := ⟨g - 1, by omega⟩
      simp at h hf hg
      cases t
      case element e =>
        simp only [List.cons_append, readCall]
        exact (ih pre f g _ h (by simp; omega) (by simp; omega)).mono (by simp)
      case string e =>
        simp only [List.cons_append, readCall]
        exact (ih pre f g _ h (by simp; omega) (by simp; omega)).mono (by simp)
      case comma => right; exact ⟨acc, pre, by simp, by simp [readCall], by simp [readCall]⟩
      case openBrace =>
        simp only [List.cons_append, readCall]
        rcases sim_net (X := X) (Y := Y) (post := post) _ pre ∅ (Nat.le_refl _) with e | ⟨a, pre', hl, e1, e2⟩
        · rw [e]
          left
          split
          · rename_i e'
            have h1 := net_len e'
            rw [← e] at e'
            have h2 := net_len e'
            simp at h1 h2
            exact readCall_fuel _ _ _ _ _ (Nat.le_refl _) (by omega) (by omega)
          · rfl
        · rw [e1, e2]
          exact (ih pre' f g _ (by omega) (by simp; omega) (by simp; omega)).mono (by simp; omega)
      case openParen =>
        simp only [List.cons_append, readCall]
        rcases sim_quote (post := post) hX hY hm _ pre ((pre ++ .openBrace :: (X ++ post)).length + 1)
          ((pre ++ .openBrace :: (Y ++ post)).length + 1) [] (Nat.le_refl _) (by omega) (by omega) with e | ⟨a, pre', hl, e1, e2⟩
        · rw [e]
          left
          split
          · rename_i e'
            have h1 := quote_len e'
            rw [← e] at e'
            have h2 := quote_len e'
            simp at h1 h2
            exact readCall_fuel _ _ _ _ _ (Nat.le_refl _) (by omega) (by omega)
          · rfl
        · rw [e1, e2]
          exact (ih pre' f g _ (by omega) (by simp; omega) (by simp; omega)).mono (by simp; omega)
      all_goals (left; simp [readCall])

theorem sim_parse (hX : Entries X es) (hY : Entries Y fs) (hm : ∀ e, e ∈ es ↔ e ∈ fs) :
    ∀ (n : Nat) (pre : List Token) (f g : Nat) (acc : List Call), pre.length ≤ n →
    (pre ++ .openBrace :: (X ++ post)).length < f → (pre ++ .openBrace :: (Y ++ post)).length < g →
    parseLoop f (pre ++ .openBrace :: (X ++ post)) acc = parseLoop g (pre ++ .openBrace :: (Y ++ post)) acc := by
  intro n
  induction n with
  | zero =>
    intro pre f g acc h hf hg
    obtain ⟨f, rfl⟩ : ∃ x, f = x + 1 := ⟨f - 1, by omega⟩
    obtain ⟨g, rfl⟩ : ∃ x, g = x + 1 := ⟨g - 1, by omega⟩
    rw [parse_step (by simp), parse_step (by simp)]
    rcases sim_call (post := post) hX hY hm _ pre ((pre ++ .openBrace :: (X ++ post)).length + 1)
      ((pre ++ .openBrace :: (Y ++ post)).length + 1) [] (Nat.le_refl _) (by omega) (by omega) with e | ⟨a, pre', hl, e1, e2⟩
    · rw [e]
      split
      · rfl
      · rfl
      · rename_i e'
        have h1 := call_len _ _ _ _ _ e'
        rw [← e] at e'
        have h2 := call_len _ _ _ _ _ e'
        simp at h1 h2 hf hg
        split
        · exact parseLoop_fuel _ _ _ _ _ (Nat.le_refl _) (by omega) (by omega)
        · rfl
    · omega
  | succ n ih =>
    intro pre f g acc h hf hg
    obtain ⟨f, rfl⟩ : ∃ x, f = x + 1 := ⟨f - 1, by omega⟩
    obtain ⟨g, rfl⟩ : ∃ x, g = x + 1 := ⟨g - 1, by omega⟩
    rw [parse_step (by simp), parse_step (by simp)]
    rcases sim_call (post := post) hX hY hm _ pre ((pre ++ .openBrace :: (X ++ post)).length + 1)
      ((pre ++ .openBrace :: (Y ++ post)).length + 1) [] (Nat.le_refl _) (by omega) (by omega) with e | ⟨a, pre', hl, e1, e2⟩
    · rw [e]
      split
      · rfl
      · rfl
      · rename_i e'
        have h1 := call_len _ _ _ _ _ e'
        rw [← e] at e'
        have h2 := call_len _ _ _ _ _ e'
        simp at h1 h2 hf hg
        split
        · exact parseLoop_fuel _ _ _ _ _ (Nat.le_refl _) (by omega) (by omega)
        · rfl
    · rw [e1, e2]
      simp at hf hg
      split
      · rename_i heq; cases heq
      · rename_i heq; cases heq
      · rename_i heq
        cases heq
        split
        · exact ih pre' _ _ _ (by omega) (by simp; omega) (by simp; omega)
        · rfl
end

/-! ## Writing and reading -/

theorem entryTokens_reads {e : Entry} (h : PlainEntry e) : ∃ a b c, entryTokens e = [.element a, .element b, .element c] ∧ ReadsEntry a b c e := by
  cases e with
  | ext a c => exact ⟨_, _, _, rfl, .extends a c⟩
  | notExt a c => exact ⟨_, _, _, rfl, .notExtends a c⟩
  | role a c r => exact ⟨_, _, _, rfl, .role _ _ _ h.1 h.2⟩

theorem entriesTokens_reads : ∀ (l : List Entry), (∀ e ∈ l, PlainEntry e) → Entries (entriesTokens l) l
  | [], _ => .close
  | [e], h => by
    obtain ⟨a, b, c, h1, h2⟩ := entryTokens_reads (h e (by simp))
    rw [entriesTokens, h1]; exact .last h2
  | e :: e' :: l, h => by
    obtain ⟨a, b, c, h1, h2⟩ := entryTokens_reads (h e (by simp))
    rw [entriesTokens, h1]
    · exact .more h2 (entriesTokens_reads (e' :: l) (fun x hx => h x (by simp at hx ⊢; exact .inr hx)))
    · exact nofun

theorem network_reads {n : Network} (h : ∀ e ∈ n, PlainEntry e) : NetworkLit (valueTokens (.network n)) n := by
  rw [valueTokens]
  exact ⟨_, n.toList, rfl, entriesTokens_reads _ h, fun e => Iff.rfl⟩

theorem items_reads : ∀ (vs : List Value), (∀ v ∈ vs, FlatValue v) → Items (valuesTokens vs ++ [.closeParen]) vs
  | [], _ => by simp only [valuesTokens]; exact .close
  | v :: vs, h => by
    have ih := items_reads vs (fun x hx => h x (List.mem_cons_of_mem _ hx))
    rw [valuesTokens, List.append_assoc]
    have hv := h v List.mem_cons_self
    cases v with
    | element e => rw [valueTokens]; exact .element ih
    | network n => exact .network (network_reads hv) ih
    | quote ws => exact hv.elim

theorem value_reads {v : Value} (h : WritableValue v) : ValueLit (valueTokens v) v := by
  cases v with
  | element e => rw [valueTokens]; exact .element e
  | network n => exact .network (network_reads h)
  | quote vs => rw [valueTokens]; exact .quote (items_reads vs h)

theorem values_reads : ∀ (vs : List Value), (∀ v ∈ vs, WritableValue v) → Values (valuesTokens vs) vs
  | [], _ => by rw [valuesTokens]; exact .nil
  | v :: vs, h => by
    rw [valuesTokens]
    exact .cons (value_reads (h v List.mem_cons_self)) (values_reads vs (fun x hx => h x (List.mem_cons_of_mem _ hx)))

theorem call_reads {c : Call} (h : WritableCall c) : CallLit (callTokens c) c :=
  .cons (ts := [.element c.name]) (.element _) (values_reads _ h)

theorem program_reads : ∀ (cs : List Call), (∀ c ∈ cs, WritableCall c) → Program (programTokens cs) cs
  | [], _ => .nil
  | [c], h => .last (call_reads (h c (by simp)))
  | c :: c' :: cs, h => by
    rw [programTokens]
    · exact .more (call_reads (h c (by simp))) (program_reads (c' :: cs) (fun x hx => h x (by simp at hx ⊢; exact .inr hx)))
    · exact nofun

theorem program_reads_comma : ∀ (cs : List Call), cs ≠ [] → (∀ c ∈ cs, WritableCall c) → Program (programTokens cs ++ [.comma]) cs
  | [], hne, _ => absurd rfl hne
  | [c], _, h => by rw [programTokens]; exact .more (call_reads (h c (by simp))) .nil
  | c :: c' :: cs, _, h => by
    rw [programTokens]
    · rw [List.append_assoc]
      exact .more (call_reads (h c (by simp)))
        (program_reads_comma (c' :: cs) (by simp) (fun x hx => h x (by simp at hx ⊢; exact .inr hx)))
    · exact nofun

theorem reads_plain {a b c : Element} {e : Entry} (h : ReadsEntry a b c e) : PlainEntry e := by
  cases h with
  | «extends» => trivial
  | notExtends => trivial
  | role _ _ h1 h2 => exact ⟨h1, h2⟩

theorem entries_plain {ts : List Token} {es : List Entry} (h : Entries ts es) : ∀ e ∈ es, PlainEntry e := by
  induction h with
  | close => intro e he; cases he
  | last h => intro e he; rw [List.mem_singleton] at he; subst he; exact reads_plain h
  | more h _ ih =>
    intro e he
    rw [List.mem_cons] at he
    rcases he with rfl | he
    · exact reads_plain h
    · exact ih e he

theorem networkLit_plain {ts : List Token} {n : Network} (h : NetworkLit ts n) : ∀ e ∈ n, PlainEntry e := by
  obtain ⟨_, es, _, he, hm⟩ := h
  intro e hen
  exact entries_plain he e ((hm e).mp hen)

theorem items_flat {ts : List Token} {vs : List Value} (h : Items ts vs) : ∀ v ∈ vs, FlatValue v := by
  induction h with
  | close => intro v hv; cases hv
  | element _ ih =>
    intro v hv
    rw [List.mem_cons] at hv
    rcases hv with rfl | hv
    · trivial
    · exact ih v hv
  | network hn _ ih =>
    intro v hv
    rw [List.mem_cons] at hv
    rcases hv with rfl | hv
    · exact networkLit_plain hn
    · exact ih v hv

theorem valueLit_writable {ts : List Token} {v : Value} (h : ValueLit ts v) : WritableValue v := by
  cases h with
  | element => trivial
  | string => trivial
  | network h => exact networkLit_plain h
  | quote h => exact items_flat h

theorem values_writable {ts : List Token} {vs : List Value} (h : Values ts vs) : ∀ v ∈ vs, WritableValue v := by
  induction h with
  | nil => intro v hv; cases hv
  | cons h _ ih =>
    intro v hv
    rw [List.mem_cons] at hv
    rcases hv with rfl | hv
    · exact valueLit_writable h
    · exact ih v hv

theorem program_writable {ts : List Token} {cs : List Call} (h : Program ts cs) : ∀ c ∈ cs, WritableCall c := by
  have hc : ∀ {ts c}, CallLit ts c → WritableCall c := fun h v hv => values_writable h v (List.mem_cons_of_mem _ hv)
  induction h with
  | nil => intro c hc; cases hc
  | last h => intro c hm; rw [List.mem_singleton] at hm; subst hm; exact hc h
  | more h _ ih =>
    intro c hm
    rw [List.mem_cons] at hm
    rcases hm with rfl | hm
    · exact hc h
    · exact ih c hm

end Parser
end Verif
