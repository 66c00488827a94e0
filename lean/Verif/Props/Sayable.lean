import Verif.Spec.Sayable
import Verif.Props.Backup
import Verif.Props.Provenance
import Verif.Props.LocalityMore
/-!
# C92: what can be said in Wander
-/
namespace Verif
namespace Props
open Spec Eval Lexer Parser Steps

/-! ## Scripts -/

/-- The elements among the tokens can be written. -/
def SayableTokens (ts : List Token) : Prop :=
  (∀ e, .element e ∈ ts → SayableElement e) ∧ ∀ s, .string s ∈ ts → StringBody s

theorem SayableTokens.sub {ts us : List Token} (h : SayableTokens ts) (hs : ∀ t ∈ us, t ∈ ts) : SayableTokens us :=
  ⟨fun e he => h.1 e (hs _ he), fun s hm => h.2 s (hs _ hm)⟩

theorem sayable_raw {script : Str} {raw : List Token} (h : Tokenized script raw) : SayableTokens raw := by
  induction h with
  | nil => exact ⟨nofun, nofun⟩
  | @cons s k n t ts hb hd _ ih =>
    obtain ⟨-, -, hf, -, -⟩ := hb
    constructor
    · intro e he
      rw [List.mem_cons] at he
      rcases he with rfl | he
      · generalize hp : s.take n = w at *
        cases hd
        exact ⟨rfl, rfl, word_stringBody hf.2⟩
      · exact ih.1 e he
    · intro x hx
      rw [List.mem_cons] at hx
      rcases hx with rfl | hx
      · generalize hp : s.take n = w at *
        cases hd
        obtain ⟨b, hb, hbody⟩ := hf
        simp only [List.cons.injEq, List.append_cancel_right_eq, true_and] at hb
        rw [hb]; exact hbody
      · exact ih.2 x hx

theorem taf_sayable {script : Str} {ts : List Token} (h : tokenizeAndFilter script = .ok ts) : SayableTokens ts := by
  obtain ⟨⟨raw, hr, rfl⟩, hk⟩ := C05_filtered script ts h
  have hraw := sayable_raw ((C02_longest_match script raw).mp hr)
  refine ⟨?_, fun s hs => absurd rfl ((hk _ hs).1 s)⟩
  intro e he
  rw [List.mem_filterMap] at he
  obtain ⟨t, ht, hk'⟩ := he
  cases t <;> cases hk'
  · exact ⟨rfl, rfl, hraw.2 _ ht⟩
  · exact hraw.1 e ht

theorem sayable_entries {ts : List Token} {es : List Entry} (h : Entries ts es) (hu : SayableTokens ts) : ∀ e ∈ es, SayableEntry e := by
  have one : ∀ {a b c : Element} {e : Entry}, ReadsEntry a b c e → SayableElement a → SayableElement b → SayableElement c → SayableEntry e := by
    intro a b c e h ha hb hc
    cases h with
    | «extends» => exact ⟨ha, hc⟩
    | notExtends => exact ⟨ha, hc⟩
    | role _ _ h1 h2 =>
      obtain ⟨t, n, l⟩ := b
      obtain ⟨k1, k2, k3⟩ := hb
      simp only at k1 k2
      subst k1; subst k2
      exact ⟨ha, hc, ⟨rfl, rfl, k3⟩, fun e => h1 (by rw [show t = _ from e]), fun e => h2 (by rw [show t = _ from e])⟩
  induction h with
  | close => intro e he; cases he
  | last h =>
    intro e he; rw [List.mem_singleton] at he; subst he
    exact one h (hu.1 _ (by simp)) (hu.1 _ (by simp)) (hu.1 _ (by simp))
  | more h _ ih =>
    intro e he
    rw [List.mem_cons] at he
    rcases he with rfl | he
    · exact one h (hu.1 _ (by simp)) (hu.1 _ (by simp)) (hu.1 _ (by simp))
    · exact ih (hu.sub fun t ht => by simp [ht]) e he

theorem sayable_network {ts : List Token} {n : Network} (h : NetworkLit ts n) (hu : SayableTokens ts) : ∀ e ∈ n, SayableEntry e := by
  obtain ⟨b, es, rfl, he, hm⟩ := h
  exact fun e hen => sayable_entries he (hu.sub fun t ht => by simp [ht]) e ((hm e).mp hen)

theorem sayable_items {ts : List Token} {vs : List Value} (h : Items ts vs) (hu : SayableTokens ts) : ∀ v ∈ vs, SayableItem v := by
  induction h with
  | close => intro v hv; cases hv
  | element _ ih =>
    intro v hv
    rw [List.mem_cons] at hv
    rcases hv with rfl | hv
    · exact hu.1 _ (by simp)
    · exact ih (hu.sub fun t ht => by simp [ht]) v hv
  | network hn _ ih =>
    intro v hv
    rw [List.mem_cons] at hv
    rcases hv with rfl | hv
    · exact sayable_network hn (hu.sub fun t ht => by simp [ht])
    · exact ih (hu.sub fun t ht => by simp [ht]) v hv

theorem sayable_values {ts : List Token} {vs : List Value} (h : Values ts vs) (hu : SayableTokens ts) : ∀ v ∈ vs, SayableValue v := by
  induction h with
  | nil => intro v hv; cases hv
  | cons h _ ih =>
    intro v hv
    rw [List.mem_cons] at hv
    rcases hv with rfl | hv
    · cases h with
      | element => exact hu.1 _ (by simp)
      | string => exact ⟨rfl, rfl, hu.2 _ (by simp)⟩
      | network h => exact sayable_network h (hu.sub fun t ht => by simp [ht])
      | quote h => exact sayable_items h (hu.sub fun t ht => by simp [ht])
    · exact ih (hu.sub fun t ht => by simp [ht]) v hv

theorem sayable_call {ts : List Token} {c : Call} (h : CallLit ts c) (hu : SayableTokens ts) : SayableCall c :=
  ⟨sayable_values h hu (.element c.name) List.mem_cons_self, fun v hv => sayable_values h hu v (List.mem_cons_of_mem _ hv)⟩

theorem sayable_program {ts : List Token} {cs : List Call} (h : Program ts cs) (hu : SayableTokens ts) : ∀ c ∈ cs, SayableCall c := by
  induction h with
  | nil => intro c hc; cases hc
  | last h => intro c hc; rw [List.mem_singleton] at hc; subst hc; exact sayable_call h hu
  | more h _ ih =>
    intro c hc
    rw [List.mem_cons] at hc
    rcases hc with rfl | hc
    · exact sayable_call h (hu.sub fun t ht => by simp [ht])
    · exact ih (hu.sub fun t ht => by simp [ht]) c hc

/-- A token as it is written: an element as a string literal with its text as it is. -/
def said : Token → Str
  | .element e => '"' :: (e.text ++ ['"'])
  | t => tokenText t

/-- A token that `said` writes. -/
def SaidToken : Token → Prop
  | .element e => SayableElement e
  | .openBrace | .closeBrace | .openParen | .closeParen | .comma => True
  | _ => False

theorem taf_literal {b : Str} (hb : StringBody b) (r : Str) :
    tokenizeAndFilter ('"' :: (b ++ ['"']) ++ r) = (tokenizeAndFilter r).map (.element ⟨b, none, none⟩ :: ·) :=
  taf_piece (k := .string) (t := .string b) (scan_split.mpr ⟨(match_shape _ _).mpr ⟨b, rfl, body_iff.mpr hb⟩, trivial, by intro h; cases h⟩)
    (by simp [mkToken, trim_quoted])

theorem taf_said : ∀ ts : List Token, (∀ t ∈ ts, SaidToken t) → tokenizeAndFilter (ts.flatMap said) = .ok ts
  | [], _ => by decide
  | t :: ts, h => by
    have ih := taf_said ts fun t ht => h t (List.mem_cons_of_mem _ ht)
    have ht := h t List.mem_cons_self
    rw [List.flatMap_cons]
    cases t with
    | element e =>
      obtain ⟨x, n, l⟩ := e
      obtain ⟨h1, h2, h3⟩ := ht
      simp only at h1 h2 h3
      subst h1; subst h2
      rw [said, taf_literal h3, ih]; rfl
    | openBrace => show tokenizeAndFilter ('{' :: ts.flatMap said) = _; rw [Display.taf_openBrace, ih]; rfl
    | closeBrace => show tokenizeAndFilter ('}' :: ts.flatMap said) = _; rw [Display.taf_closeBrace, ih]; rfl
    | openParen => show tokenizeAndFilter ('(' :: ts.flatMap said) = _; rw [Display.taf_openParen, ih]; rfl
    | closeParen => show tokenizeAndFilter (')' :: ts.flatMap said) = _; rw [Display.taf_closeParen, ih]; rfl
    | comma => show tokenizeAndFilter (',' :: ts.flatMap said) = _; rw [Display.taf_comma, ih]; rfl
    | _ => exact ht.elim

theorem plain_stringBody {s : Str} (h : ∀ c ∈ s, ¬ Special c) : StringBody s := by
  induction s with
  | nil => exact .nil
  | cons c s ih =>
    have hc := h c List.mem_cons_self
    exact .plain (Nat.le_of_not_lt fun h => hc (.inl h)) (fun e => hc (.inr (.inl e))) (fun e => hc (.inr (.inr e)))
      (ih fun x hx => h x (List.mem_cons_of_mem _ hx))

theorem sayable_of {s : Str} (h : StringBody s) : SayableElement ⟨s, none, none⟩ := ⟨rfl, rfl, h⟩

theorem sayable_colon : SayableElement ⟨lit ":", none, none⟩ := sayable_of (plain_stringBody (by unfold Special; decide))
theorem sayable_notColon : SayableElement ⟨lit "¬:", none, none⟩ := sayable_of (plain_stringBody (by unfold Special; decide))

theorem said_entry {e : Entry} (h : SayableEntry e) : ∀ t ∈ entryTokens e, SaidToken t := by
  cases e <;> simp only [entryTokens, List.mem_cons, List.not_mem_nil, or_false] <;> rintro t (rfl | rfl | rfl)
  all_goals first | exact sayable_colon | exact sayable_notColon | exact h.1 | exact h.2 | exact h.2.1 | exact h.2.2.1

theorem said_entries : ∀ {es : List Entry}, (∀ e ∈ es, SayableEntry e) → ∀ t ∈ entriesTokens es, SaidToken t
  | [], _ => by simp only [entriesTokens, List.mem_singleton]; rintro t rfl; trivial
  | [e], h => by
    simp only [entriesTokens, List.mem_append, List.mem_singleton]
    rintro t (ht | rfl)
    · exact said_entry (h e (by simp)) t ht
    · trivial
  | e :: e' :: es, h => by
    rw [Display.entriesTokens_cons _ (by simp)]
    simp only [List.mem_append, List.mem_cons]
    rintro t (ht | rfl | ht)
    · exact said_entry (h e (by simp)) t ht
    · trivial
    · exact said_entries (fun x hx => h x (List.mem_cons_of_mem _ hx)) t ht

theorem said_item {v : Value} (h : SayableItem v) : ∀ t ∈ valueTokens v, SaidToken t := by
  cases v with
  | element e => simp only [valueTokens, List.mem_singleton]; rintro t rfl; exact h
  | network n =>
    simp only [valueTokens, List.mem_cons]
    rintro t (rfl | ht)
    · trivial
    · exact said_entries (fun e he => h e (BSet.mem_def.mpr he)) t ht
  | quote vs => exact h.elim

theorem said_items : ∀ {vs : List Value}, (∀ v ∈ vs, SayableItem v) → ∀ t ∈ valuesTokens vs, SaidToken t
  | [], _ => by simp [valuesTokens]
  | v :: vs, h => by
    simp only [valuesTokens, List.mem_append]
    rintro t (ht | ht)
    · exact said_item (h v List.mem_cons_self) t ht
    · exact said_items (fun x hx => h x (List.mem_cons_of_mem _ hx)) t ht

theorem said_value {v : Value} (h : SayableValue v) : ∀ t ∈ valueTokens v, SaidToken t := by
  cases v with
  | element e => exact said_item (v := .element e) h
  | network n => exact said_item (v := .network n) h
  | quote vs =>
    simp only [valueTokens, List.mem_cons, List.mem_append, List.not_mem_nil, or_false]
    rintro t (rfl | ht | rfl)
    · trivial
    · exact said_items h t ht
    · trivial

theorem said_values : ∀ {vs : List Value}, (∀ v ∈ vs, SayableValue v) → ∀ t ∈ valuesTokens vs, SaidToken t
  | [], _ => by simp [valuesTokens]
  | v :: vs, h => by
    simp only [valuesTokens, List.mem_append]
    rintro t (ht | ht)
    · exact said_value (h v List.mem_cons_self) t ht
    · exact said_values (fun x hx => h x (List.mem_cons_of_mem _ hx)) t ht

theorem said_call {c : Call} (h : SayableCall c) : ∀ t ∈ callTokens c, SaidToken t := by
  simp only [callTokens, List.mem_cons]
  rintro t (rfl | ht)
  · exact h.1
  · exact said_values h.2 t ht

theorem said_program : ∀ {cs : List Call}, (∀ c ∈ cs, SayableCall c) → ∀ t ∈ programTokens cs, SaidToken t
  | [], _ => by simp [programTokens]
  | [c], h => by rw [programTokens]; exact said_call (h c (by simp))
  | c :: c' :: cs, h => by
    rw [programTokens]
    · simp only [List.mem_append, List.mem_cons]
      rintro t (ht | rfl | ht)
      · exact said_call (h c (by simp)) t ht
      · trivial
      · exact said_program (fun x hx => h x (List.mem_cons_of_mem _ hx)) t ht
    · exact nofun

theorem sayable_plain {e : Entry} (h : SayableEntry e) : PlainEntry e := by
  cases e with
  | role a c r => exact ⟨fun e => h.2.2.2.1 (by rw [e]), fun e => h.2.2.2.2 (by rw [e])⟩
  | _ => trivial

theorem sayable_flat {v : Value} (h : SayableItem v) : FlatValue v := by
  cases v with
  | element => trivial
  | network n => exact fun e he => sayable_plain (h e he)
  | quote => exact h

theorem sayable_writable {c : Call} (h : SayableCall c) : WritableCall c := by
  intro v hv
  have := h.2 v hv
  cases v with
  | element => trivial
  | network n => exact fun e he => sayable_plain (this e he)
  | quote vs => exact fun v hv => sayable_flat (this v hv)

/-- C92: a list of calls is what some script means exactly if everything in it is sayable: no tags, texts that can stand in a string literal as they are,
no role spelled like one of the two other kinds of entries, no quote inside a quote. -/
theorem C92_scripts (calls : List Call) : (∃ script, Means script calls) ↔ ∀ c ∈ calls, SayableCall c := by
  constructor
  · rintro ⟨script, ts, ht, hp⟩
    exact sayable_program hp (taf_sayable ht)
  · intro h
    exact ⟨(programTokens calls).flatMap said, programTokens calls, taf_said _ (said_program h),
      parse_ok_iff.mp (C07_round_trip calls fun c hc => sayable_writable (h c hc)).1⟩

/-! ## Values and stores -/

theorem run_no_calls (L : LigOps σ) {script : Str} (h : ¬ ∃ calls, Means script calls) (s : σ) :
    (run L common script s).2 = s ∧ ∀ v, (run L common script s).1 ≠ .ok v := (C13_script L common script s).2.2 h

theorem sayable_canon {e : Entry} (h : SayableEntry e) : canon e = e := by
  have pl : ∀ {e : Element}, SayableElement e → plain e = e := fun h => plain_eq ⟨h.1, h.2.1⟩
  cases e with
  | ext a c => simp only [canon, pl h.1, pl h.2]
  | notExt a c => simp only [canon, pl h.1, pl h.2]
  | role a c r => simp only [canon, if_neg h.2.2.2.1, if_neg h.2.2.2.2, pl h.1, pl h.2.1, pl h.2.2.1]

theorem sayable_trip (t : Trip) : SayableEntry (Graph.tripToEntry t) ↔ ∀ x ∈ tripTexts t, StringBody x := by
  obtain ⟨a, b, c⟩ := t
  simp only [tripTexts, List.mem_cons, List.not_mem_nil, or_false, forall_eq_or_imp, forall_eq, Graph.tripToEntry]
  have e1 : colonS = lit ":" := by decide
  have e2 : notColonS = lit "¬:" := by decide
  rw [e1, e2]
  split
  · rename_i h
    subst h
    exact ⟨fun h => ⟨h.1.2.2, sayable_colon.2.2, h.2.2.2⟩, fun h => ⟨sayable_of h.1, sayable_of h.2.2⟩⟩
  · split
    · rename_i h
      subst h
      exact ⟨fun h => ⟨h.1.2.2, sayable_notColon.2.2, h.2.2.2⟩, fun h => ⟨sayable_of h.1, sayable_of h.2.2⟩⟩
    · rename_i h1 h2
      exact ⟨fun h => ⟨h.1.2.2, h.2.2.1.2.2, h.2.1.2.2⟩, fun h => ⟨sayable_of h.1, sayable_of h.2.2, sayable_of h.2.1, h1, h2⟩⟩

theorem sayable_doc {e : Entry} (h : DocEntry e) : SayableEntry e := by
  obtain ⟨p, hp, rfl⟩ := h
  have h1 : ∀ p ∈ [
    ("assert-equal", "Check if two arguments are equal (quotes are evaluated before comparing) and fail if they are not equal."),
    ("assert-fail", "Accept a quote and run it. If the quote results in a failure continue otherwise fail."),
    ("ignore", "Ignore all arguments to this command and return an empty network."),
    ("let", "Set a named network."), ("read", "Read a network."), ("id", "Return a value."),
    ("docs", "Get a list of commands and a description."), ("union", "Combine two networks."), ("filter", "Filter a network.")],
    (∀ c ∈ lit p.1, ¬ (c.toNat < 0x20 ∨ c = '"' ∨ c = '\\')) ∧ (∀ c ∈ lit p.2, ¬ (c.toNat < 0x20 ∨ c = '"' ∨ c = '\\')) := by decide +kernel
  obtain ⟨a, b⟩ := h1 p hp
  exact ⟨sayable_of (plain_stringBody a), sayable_of (plain_stringBody b), sayable_of (plain_stringBody (by unfold Special; decide)),
    by decide, by decide⟩

theorem sayable_written_item {e : Entry} : ∀ {vs : List Value}, (∀ v ∈ vs, SayableItem v) → WrittenInAny e vs → SayableEntry e
  | [], _, h => by simp only [WrittenInAny] at h
  | v :: vs, hv, h => by
    simp only [WrittenInAny] at h
    rcases h with h | h
    · have := hv v List.mem_cons_self
      cases v with
      | element => simp only [WrittenIn] at h
      | network n => simp only [WrittenIn] at h; exact this e h
      | quote => exact this.elim
    · exact sayable_written_item (fun x hx => hv x (List.mem_cons_of_mem _ hx)) h

theorem sayable_written {e : Entry} : ∀ {vs : List Value}, (∀ v ∈ vs, SayableValue v) → WrittenInAny e vs → SayableEntry e
  | [], _, h => by simp only [WrittenInAny] at h
  | v :: vs, hv, h => by
    simp only [WrittenInAny] at h
    rcases h with h | h
    · have := hv v List.mem_cons_self
      cases v with
      | element => simp only [WrittenIn] at h
      | network n => simp only [WrittenIn] at h; exact this e h
      | quote q => simp only [WrittenIn] at h; exact sayable_written_item this h
    · exact sayable_written (fun x hx => hv x (List.mem_cons_of_mem _ hx)) h

theorem item_value {v : Value} (h : SayableItem v) : SayableValue v := by
  cases v with
  | quote => exact h.elim
  | element => exact h
  | network => exact h

theorem sayable_part_item {x : Value} : ∀ {vs : List Value}, (∀ v ∈ vs, SayableItem v) → PartOfAny x vs → SayableValue x
  | [], _, h => by simp only [PartOfAny] at h
  | v :: vs, hv, h => by
    simp only [PartOfAny] at h
    rcases h with h | h
    · have := hv v List.mem_cons_self
      cases v with
      | element => simp only [PartOf] at h; rw [h]; exact this
      | network n => simp only [PartOf] at h; rw [h]; exact this
      | quote => exact this.elim
    · exact sayable_part_item (fun x hx => hv x (List.mem_cons_of_mem _ hx)) h

theorem sayable_part {x : Value} : ∀ {vs : List Value}, (∀ v ∈ vs, SayableValue v) → PartOfAny x vs → SayableValue x
  | [], _, h => by simp only [PartOfAny] at h
  | v :: vs, hv, h => by
    simp only [PartOfAny] at h
    rcases h with h | h
    · have := hv v List.mem_cons_self
      cases v with
      | element => simp only [PartOf] at h; rw [h]; exact this
      | network n => simp only [PartOf] at h; rw [h]; exact this
      | quote q =>
        simp only [PartOf] at h
        rcases h with rfl | h
        · exact this
        · exact sayable_part_item this h
    · exact sayable_part (fun x hx => hv x (List.mem_cons_of_mem _ hx)) h

theorem sayable_uses {n : Element} {c : Call} (hc : SayableCall c) (h : CallUses n c) : SayableElement n := by
  have item : ∀ {vs : List Value}, (∀ v ∈ vs, SayableItem v) → ¬ UsesInList n vs := by
    intro vs
    induction vs with
    | nil => intro _ h; simp only [UsesInList] at h
    | cons v vs ih =>
      intro hv h
      simp only [UsesInList] at h
      rcases h with h | h
      · have := hv v List.mem_cons_self
        cases v with
        | element => simp only [UsesIn] at h
        | network => simp only [UsesIn] at h
        | quote => exact this.elim
      · exact ih (fun x hx => hv x (List.mem_cons_of_mem _ hx)) h
  have vals : ∀ {vs : List Value}, (∀ v ∈ vs, SayableValue v) → UsesInList n vs → SayableElement n := by
    intro vs
    induction vs with
    | nil => intro _ h; simp only [UsesInList] at h
    | cons v vs ih =>
      intro hv h
      simp only [UsesInList] at h
      rcases h with h | h
      · have := hv v List.mem_cons_self
        cases v with
        | element => simp only [UsesIn] at h
        | network => simp only [UsesIn] at h
        | quote q =>
          simp only [UsesIn] at h
          rcases h with ⟨e, args, rfl, -, rest, rfl⟩ | h
          · exact this (.element n) (by simp)
          · exact absurd h (item this)
      · exact ih (fun x hx => hv x (List.mem_cons_of_mem _ hx)) h
  rcases h with ⟨-, rest, e⟩ | h
  · exact hc.2 (.element n) (by rw [e]; simp)
  · exact vals hc.2 h

section
variable {T : TripsOps τ} {I : τ → Prop}

theorem allIn_iff {s : τ} : AllIn (Graph.ops T) SayableEntry s ↔ ∀ c ts, T.triples s c = .ok ts → ∀ t ∈ ts, ∀ x ∈ tripTexts t, StringBody x := by
  constructor
  · intro h c ts ht t hm
    exact (sayable_trip t).mp (h _ ⟨⟨c, none, none⟩, ts.map Graph.tripToEntry, by
      show (T.triples s c).map _ = _; rw [ht]; rfl, BSet.mem_map.mpr ⟨t, hm, rfl⟩⟩)
  · rintro h e ⟨c, n, h1, h2⟩
    have h1' : (T.triples s c.text).map (·.map Graph.tripToEntry) = .ok n := h1
    cases ht : T.triples s c.text with
    | err m => rw [ht] at h1'; cases h1'
    | panic => rw [ht] at h1'; cases h1'
    | ok ts =>
      rw [ht] at h1'; cases h1'
      obtain ⟨t, ht', rfl⟩ := BSet.mem_map.mp h2
      exact (sayable_trip t).mpr (h _ _ ht t ht')

theorem sayable_traceable {s : τ} (hs : AllIn (Graph.ops T) SayableEntry s) {calls : List Call} (hc : ∀ c ∈ calls, SayableCall c) {e : Entry}
    (h : Traceable (Graph.ops T) s [calls] e) : SayableEntry e := by
  obtain ⟨x, hx, he⟩ := h
  have : SayableEntry x := by
    rcases hx with hx | ⟨cs, hcs, ⟨c, hm, hw⟩ | ⟨-, hd⟩⟩
    · exact hs x hx
    · simp only [List.mem_singleton] at hcs; subst hcs
      exact sayable_written (hc c hm).2 hw
    · exact sayable_doc hd
  rcases he with rfl | rfl
  · exact this
  · rw [sayable_canon this]; exact this

theorem keeps_sayable (C : Conserves T I) {b : Bool} {world : τ → World} {P : Op → Prop} (R : Refines T I b world P) {s : τ} (hi : I s)
    (hs : SayableStore T s) (script : Str) :
    (I (run (Graph.ops T) common script s).2 ∧ SayableStore T (run (Graph.ops T) common script s).2) ∧
    ∀ v, (run (Graph.ops T) common script s).1 = .ok v → SayableValue v := by
  by_cases hm : ∃ calls, Means script calls
  · obtain ⟨calls, hm⟩ := hm
    have hc := (C92_scripts calls).mp ⟨script, hm⟩
    rw [run_means _ _ hm]
    obtain ⟨h1, h2⟩ := traceable_alone C hi calls
    have ha := allIn_iff.mpr hs.2
    have hn : ∀ name : Element, (∃ c ∈ calls, CallLets name c) → StringBody name.text := fun name ⟨c, hm, hl⟩ =>
      (sayable_uses (hc c hm) (callUses_of_lets hl)).2.2
    have step : ∀ (t : τ) (op : Op), StringBody op.target → I t → (∀ c, Listed T t c → StringBody c) →
        ∀ c, Listed T (exec T t op).2 c → StringBody c := by
      intro t op ho ht hp c hl
      by_cases e : c = op.target
      · rw [e]; exact ho
      · exact hp c ((R.isolated ht op c e).2.mp hl)
    obtain ⟨g1, g2⟩ := calls_keep R.inv (fun t => ∀ c, Listed T t c → StringBody c) calls
      (fun name h t ht hp => step t (.addCollection name.text) (hn name h) ht hp)
      (fun name h t ts ht hp => step t (.addTriples name.text ts) (hn name h) ht hp) s hi hs.1
    refine ⟨⟨g1, g2, allIn_iff.mp fun e he => sayable_traceable ha hc (h1 e he)⟩, fun v hv => ?_⟩
    obtain ⟨k1, k2⟩ := h2 v hv
    rcases k2 with ⟨n, rfl⟩ | ⟨c, hm, hw⟩
    · exact fun e he => sayable_traceable ha hc (k1 n rfl e he)
    · exact sayable_part (hc c hm).2 hw
  · obtain ⟨h1, h2⟩ := run_no_calls (Graph.ops T) hm s
    rw [h1]
    exact ⟨⟨hi, hs⟩, fun v hv => absurd hv (h2 v)⟩

theorem session_sayable (C : Conserves T I) {b : Bool} {world : τ → World} {P : Op → Prop} (R : Refines T I b world P) :
    ∀ (scripts : List Str) {s : τ}, I s → SayableStore T s → I (afterScripts (Graph.ops T) scripts s) ∧ SayableStore T (afterScripts (Graph.ops T) scripts s)
  | [], _, hi, hs => ⟨hi, hs⟩
  | script :: scripts, _, hi, hs =>
    have h := (keeps_sayable C R hi hs script).1
    session_sayable C R scripts h.1 h.2

end

theorem sayable_new : SayableStore Mem.ops Mem.new ∧ SayableStore Heed.ops Heed.new ∧ SayableStore Duck.ops Duck.new := by
  refine ⟨⟨?_, ?_⟩, ⟨?_, ?_⟩, ⟨?_, ?_⟩⟩
  · rintro c ⟨l, h1, h2⟩; cases h1; cases h2
  · intro c ts h; cases h
  · rintro c ⟨l, h1, h2⟩; cases h1; cases h2
  · intro c ts h
    rw [show Heed.ops.triples Heed.new c = _ from Heed.triples_missing Heed.good_new (by rw [show Heed.world Heed.new _ = _ from Heed.worldOf_new]; rfl)] at h
    cases h
  · rintro c ⟨l, h1, h2⟩; cases h1; cases h2
  · intro c ts h t ht
    cases h
    simp at ht

/-- C92, each of the three stores: after any scripts, well-formed or not and whatever their outcomes, run one after the other on a new store, every name
and every text in the store is sayable, and so is every value a further script returns. -/
theorem C92_only_sayable (scripts : List Str) :
    (let s := afterScripts (Graph.ops Mem.ops) scripts Mem.new
     SayableStore Mem.ops s ∧ ∀ script v, (run (Graph.ops Mem.ops) common script s).1 = .ok v → SayableValue v) ∧
    (let s := afterScripts (Graph.ops Heed.ops) scripts Heed.new
     SayableStore Heed.ops s ∧ ∀ script v, (run (Graph.ops Heed.ops) common script s).1 = .ok v → SayableValue v) ∧
    (let s := afterScripts (Graph.ops Duck.ops) scripts Duck.new
     SayableStore Duck.ops s ∧ ∀ script v, (run (Graph.ops Duck.ops) common script s).1 = .ok v → SayableValue v) := by
  obtain ⟨m, h, d⟩ := sayable_new
  have m' := session_sayable mem_conserves mem_refines scripts trivial m
  have h' := session_sayable heed_conserves heed_refines scripts Heed.good_new h
  have d' := session_sayable duck_conserves duck_refines scripts (duck_inv []) d
  exact ⟨⟨m'.2, fun script => (keeps_sayable mem_conserves mem_refines m'.1 m'.2 script).2⟩,
    ⟨h'.2, fun script => (keeps_sayable heed_conserves heed_refines h'.1 h'.2 script).2⟩,
    ⟨d'.2, fun script => (keeps_sayable duck_conserves duck_refines d'.1 d'.2 script).2⟩⟩

/-- C92: a value is what some script returns on a new store exactly if it is sayable, for each of the three stores. -/
theorem C92_values (v : Value) :
    ((∃ script, (run (Graph.ops Mem.ops) common script Mem.new).1 = .ok v) ↔ SayableValue v) ∧
    ((∃ script, (run (Graph.ops Heed.ops) common script Heed.new).1 = .ok v) ↔ SayableValue v) ∧
    ((∃ script, (run (Graph.ops Duck.ops) common script Duck.new).1 = .ok v) ↔ SayableValue v) := by
  obtain ⟨m, h, d⟩ := C92_only_sayable []
  have ex : ∀ {τ : Type} (L : LigOps τ) (s : τ), SayableValue v → ∃ script, (run L common script s).1 = .ok v := by
    intro τ L s hv
    obtain ⟨script, hs⟩ := (C92_scripts [⟨⟨lit "id", none, none⟩, [v]⟩]).mpr (by
      intro c hc
      rw [List.mem_singleton] at hc; subst hc
      refine ⟨sayable_of (plain_stringBody (by unfold Special; decide)), fun x hx => ?_⟩
      rw [List.mem_singleton] at hx; subst hx; exact hv)
    exact ⟨script, by rw [run_means _ _ hs]; rfl⟩
  exact ⟨⟨fun ⟨script, hs⟩ => m.2 script v hs, ex _ _⟩, ⟨fun ⟨script, hs⟩ => h.2 script v hs, ex _ _⟩,
    ⟨fun ⟨script, hs⟩ => d.2 script v hs, ex _ _⟩⟩

/-- The lets that build a sayable store can be written. -/
theorem sayable_lets {T : TripsOps σ} {s : σ} (hs : SayableStore T s) {cs : List (Str × BSet Trip)} (hl : Lists T s cs) :
    ∀ c ∈ cs.map letCall, SayableCall c := by
  intro c hc
  obtain ⟨p, hp, rfl⟩ := List.mem_map.mp hc
  refine ⟨sayable_of (plain_stringBody (by unfold Special; decide)), ?_⟩
  intro v hv
  simp only [letCall, List.mem_cons, List.not_mem_nil, or_false] at hv
  rcases hv with rfl | rfl
  · exact sayable_of (hs.1 p.1 ⟨_, hl.1, List.mem_map_of_mem hp⟩)
  · intro e he
    obtain ⟨t, ht, rfl⟩ := BSet.mem_map.mp he
    exact (sayable_trip t).mpr (hs.2 p.1 p.2 (hl.2.2 p hp) t ht)

theorem restored_all {m : Mem} {cs : List (Str × BSet Trip)} (hl : Lists Mem.ops m cs) : restored Mem.new cs = m := by
  obtain ⟨g1, g2⟩ := restored_get cs Mem.new hl.2.1
  have hk : m.colls.keys = cs.map Prod.fst := by
    have := hl.1; simp only [Mem.ops, Mem.collections, Res.ok.injEq] at this; exact this
  have : (restored Mem.new cs).colls = m.colls := by
    apply BMap.ext_get
    intro c
    by_cases hc : c ∈ cs.map Prod.fst
    · obtain ⟨p, hp, rfl⟩ := List.mem_map.mp hc
      rw [g1 p hp]
      have := hl.2.2 p hp
      simp only [Mem.ops, Mem.triples] at this
      cases e : m.colls.get? p.1 with
      | none => rw [e] at this; cases this
      | some ts => rw [e] at this; cases this; rfl
    · rw [g2 c hc]
      have h0 : m.colls.get? c = none := by
        cases e : m.colls.get? c with
        | none => rfl
        | some v => exact absurd (hk ▸ BMap.mem_keys.mpr ⟨v, e⟩) hc
      rw [h0]; rfl
  show (⟨(restored Mem.new cs).colls⟩ : Mem) = ⟨m.colls⟩
  rw [this]

/-- C92: an in-memory store is what scripts make of a new one exactly if everything in it is sayable; one script is enough then. -/
theorem C92_stores (m : Mem) :
    ((∃ scripts, afterScripts (Graph.ops Mem.ops) scripts Mem.new = m) ↔ SayableStore Mem.ops m) ∧
    (SayableStore Mem.ops m → ∃ script, run (Graph.ops Mem.ops) common script Mem.new = (.ok (.network ∅), m)) := by
  have one : SayableStore Mem.ops m → ∃ script, run (Graph.ops Mem.ops) common script Mem.new = (.ok (.network ∅), m) := by
    intro hs
    obtain ⟨cs, hl⟩ := lists_of_agrees (Mem.agrees m)
    obtain ⟨script, h⟩ := (C92_scripts _).mpr (sayable_lets hs hl)
    refine ⟨script, ?_⟩
    rw [run_means _ _ h]
    exact (mem_lets cs emptyNet Mem.new rfl).trans (by rw [restored_all hl])
  refine ⟨⟨?_, fun h => ?_⟩, one⟩
  · rintro ⟨scripts, rfl⟩
    exact (C92_only_sayable scripts).1.1
  · obtain ⟨script, e⟩ := one h
    exact ⟨[script], by simp only [afterScripts]; rw [e]⟩

/-- C92: the contents of any store, if sayable, can be built by one script in a new store of any of the three kinds, as long as the names are legal LMDB keys
and 2^64 identifiers are enough. -/
theorem C92_build (T : TripsOps σ) (s : σ) (w : World) (h : Agrees T s w) (hs : SayableStore T s) (hk : ∀ c, Listed T s c → Heed.lmdbKey c = true)
    (h64 : Fits64 T s) : ∃ script,
      let m := run (Graph.ops Mem.ops) common script Mem.new
      let e := run (Graph.ops Heed.ops) common script Heed.new
      let d := run (Graph.ops Duck.ops) common script Duck.new
      (m.1 = .ok (.network ∅) ∧ SameView T s Mem.ops m.2) ∧ (e.1 = .ok (.network ∅) ∧ SameView T s Heed.ops e.2) ∧
        (d.1 = .ok (.network ∅) ∧ SameView T s Duck.ops d.2) := by
  obtain ⟨cs, hl⟩ := lists_of_agrees h
  obtain ⟨script, hm⟩ := (C92_scripts _).mpr (sayable_lets hs hl)
  refine ⟨script, migrate_of h hk h64 hl script (fun L t => run_means L common hm t)⟩

/-- C92, each of the three stores, in every reachable state: whatever a script says, a collection whose name is not sayable keeps its entries and its
existence. -/
theorem C92_untouchable (l : List Op) (script : Str) (d : Element) (hd : ¬ StringBody d.text) :
    (let s := (runOps Mem.ops Mem.new l).2
     let s' := (run (Graph.ops Mem.ops) common script s).2
     (Graph.ops Mem.ops).entries s' d = (Graph.ops Mem.ops).entries s d ∧ (Listed Mem.ops s' d.text ↔ Listed Mem.ops s d.text)) ∧
    (let s := (runOps Heed.ops Heed.new l).2
     let s' := (run (Graph.ops Heed.ops) common script s).2
     (Graph.ops Heed.ops).entries s' d = (Graph.ops Heed.ops).entries s d ∧ (Listed Heed.ops s' d.text ↔ Listed Heed.ops s d.text)) ∧
    (let s := (runOps Duck.ops Duck.new l).2
     let s' := (run (Graph.ops Duck.ops) common script s).2
     (Graph.ops Duck.ops).entries s' d = (Graph.ops Duck.ops).entries s d ∧ (Listed Duck.ops s' d.text ↔ Listed Duck.ops s d.text)) := by
  by_cases hm : ∃ calls, Means script calls
  · obtain ⟨calls, hm⟩ := hm
    have hc := (C92_scripts calls).mp ⟨script, hm⟩
    simp only [run_means _ _ hm]
    exact C61_frame l calls d fun c h name hl e => hd (e ▸ (sayable_uses (hc c h) (callUses_of_lets hl)).2.2)
  · dsimp only
    rw [(run_no_calls _ hm _).1, (run_no_calls _ hm _).1, (run_no_calls _ hm _).1]
    exact ⟨⟨rfl, Iff.rfl⟩, ⟨rfl, Iff.rfl⟩, rfl, Iff.rfl⟩

/-- A script that means nothing gets the same answer from all stores. -/
theorem run_no_calls_same (L : LigOps σ) {script : Str} (hm : ¬ ∃ calls, Means script calls) (s t : σ) :
    (run L common script s).1 = (run L common script t).1 := by
  rw [run]
  rw [run]
  cases ht : tokenizeAndFilter script with
  | err => rfl
  | panic => rfl
  | ok ts =>
    simp only
    cases hp : parse ts with
    | err => rfl
    | panic => rfl
    | ok cs => exact absurd ⟨cs, ts, ht, parse_ok_iff.mp hp⟩ hm

/-- C92, in-memory store: two stores with the same collections of sayable names answer every script in the same way. -/
theorem C92_unseen (s t : Mem) (h : ∀ c : Element, StringBody c.text → Graph.memOps.entries s c = Graph.memOps.entries t c) (script : Str) :
    (run Graph.memOps common script s).1 = (run Graph.memOps common script t).1 := by
  by_cases hm : ∃ calls, Means script calls
  · obtain ⟨calls, hm⟩ := hm
    have hc := (C92_scripts calls).mp ⟨script, hm⟩
    rw [run_means _ _ hm, run_means _ _ hm]
    exact (C62_depends_on_named s t calls fun c hm n hn => h n (sayable_uses (hc c hm) hn).2.2).1
  · exact run_no_calls_same _ hm s t

/-- C92, DuckDB store: likewise, in any two reachable states. -/
theorem C92_unseen_duck (l l' : List Op) (script : Str) :
    let s := (runOps Duck.ops Duck.new l).2
    let t := (runOps Duck.ops Duck.new l').2
    (∀ c : Element, StringBody c.text → (Listed Duck.ops s c.text ↔ Listed Duck.ops t c.text) ∧
      (Graph.ops Duck.ops).entries s c = (Graph.ops Duck.ops).entries t c) →
    (run (Graph.ops Duck.ops) common script s).1 = (run (Graph.ops Duck.ops) common script t).1 := by
  intro s t h
  by_cases hm : ∃ calls, Means script calls
  · obtain ⟨calls, hm⟩ := hm
    have hc := (C92_scripts calls).mp ⟨script, hm⟩
    rw [run_means _ _ hm, run_means _ _ hm]
    exact (C62_depends_duck l l' calls fun c hm n hn => h n (sayable_uses (hc c hm) hn).2.2).1
  · exact run_no_calls_same _ hm s t

/-- C92, LMDB store: likewise, in any two reachable states, for scripts whose collection names LMDB accepts as keys and as long as identifiers do not
run out. -/
theorem C92_unseen_heed (l l' : List Op) (script : Str) :
    let s := (runOps Heed.ops Heed.new l).2
    let t := (runOps Heed.ops Heed.new l').2
    (∀ calls, Means script calls → ∀ c ∈ calls, ∀ n : Element, CallUses n c → Heed.lmdbKey n.text = true) →
    costOf l + progCost (Graph.ops Heed.ops) (scriptP script) s ≤ 2 ^ 64 → costOf l' + progCost (Graph.ops Heed.ops) (scriptP script) s ≤ 2 ^ 64 →
    (∀ c : Element, StringBody c.text → (Listed Heed.ops s c.text ↔ Listed Heed.ops t c.text) ∧
      (Graph.ops Heed.ops).entries s c = (Graph.ops Heed.ops).entries t c) →
    (run (Graph.ops Heed.ops) common script s).1 = (run (Graph.ops Heed.ops) common script t).1 := by
  intro s t hk h1 h2 h
  by_cases hm : ∃ calls, Means script calls
  · obtain ⟨calls, hm⟩ := hm
    have hc := (C92_scripts calls).mp ⟨script, hm⟩
    have hp : scriptP script = callsP calls := by
      obtain ⟨ts, ht, hg⟩ := hm
      rw [scriptP, ht]
      simp only [parse_ok_iff.mpr hg]
    rw [hp] at h1 h2
    rw [run_means _ _ hm, run_means _ _ hm]
    exact (C62_depends_heed l l' calls (hk calls hm) h1 h2 fun c hm n hn => h n (sayable_uses (hc c hm) hn).2.2).1
  · exact run_no_calls_same _ hm s t

/-! ## Cases -/

theorem unsayable_newline : ¬ StringBody (lit "a\nb") := by
  intro h
  rw [show lit "a\nb" = ['a', '\n', 'b'] by decide] at h
  cases h with
  | plain _ _ _ h =>
    cases h with
    | plain h _ _ _ => exact absurd h (by decide)

theorem unsayable_quote : ¬ StringBody (lit "\"") := by
  intro h
  rw [show lit "\"" = ['"'] by decide] at h
  cases h with
  | plain _ h _ _ => exact h rfl

/-- A text with an escape is sayable, as the characters that stand between the quotes. -/
theorem sayable_escape : StringBody (lit "say \\\"hi\\\"") := by
  rw [show lit "say \\\"hi\\\"" = ['s', 'a', 'y', ' ', '\\', '"', 'h', 'i', '\\', '"'] by decide]
  repeat' first | exact .nil | refine .plain (by decide) (by decide) (by decide) ?_ | refine .escape (by decide) ?_

/-- Calls that can be written, with an escape, a role entry and a quote. -/
def saidCalls : List Call :=
  [⟨el "let", [.element (el "T"), .network (BSet.ofList [.role (el "a b") (.of (lit "say \\\"hi\\\"")) (el "r"), .ext (el "a b") (el "c")])]⟩,
   ⟨el "assert-equal", [.quote [.element (el "read"), .element (el "T")], .network ∅]⟩]

example : Means (lit "let T {\"a b\" r \"say \\\"hi\\\"\", \"a b\" : c}, assert-equal (read T) {}") saidCalls :=
  ⟨programTokens saidCalls, by decide +kernel, parse_ok_iff.mp (by decide +kernel)⟩

example : ∀ c ∈ saidCalls, SayableCall c :=
  (C92_scripts saidCalls).mp ⟨lit "let T {\"a b\" r \"say \\\"hi\\\"\", \"a b\" : c}, assert-equal (read T) {}",
    programTokens saidCalls, by decide +kernel, parse_ok_iff.mp (by decide +kernel)⟩

/-- Calls no script means: a newline, a tag, a role spelled `:`, a quote inside a quote. -/
example : (¬ ∃ script, Means script [⟨el "id", [.element (.of (lit "a\nb"))]⟩]) ∧
    (¬ ∃ script, Means script [⟨el "id", [.element ⟨lit "a", some (lit "ns"), none⟩]⟩]) ∧
    (¬ ∃ script, Means script [⟨el "id", [.network (BSet.ofList [.role (el "a") (el "b") (el ":")])]⟩]) ∧
    (¬ ∃ script, Means script [⟨el "id", [.quote [.quote []]]⟩]) := by
  refine ⟨?_, ?_, ?_, ?_⟩ <;> rw [C92_scripts] <;> intro h <;> have h := (h _ List.mem_cons_self).2 _ List.mem_cons_self
  · exact unsayable_newline h.2.2
  · exact absurd h.1 (by decide)
  · exact (h (.role (el "a") (el "b") (el ":")) (by decide +kernel)).2.2.2.1 (by decide)
  · exact h _ List.mem_cons_self

/-- A value with an escape that scripts return; a newline that none returns on any store. -/
example : SayableValue (.element (.of (lit "say \\\"hi\\\""))) ∧ ¬ SayableValue (.element (.of (lit "a\nb"))) ∧
    ¬ ∃ script, (run (Graph.ops Heed.ops) common script Heed.new).1 = .ok (.element (.of (lit "a\nb"))) :=
  ⟨⟨rfl, rfl, sayable_escape⟩, fun h => unsayable_newline h.2.2, fun h => unsayable_newline ((C92_values _).2.1.mp h).2.2⟩

/-- A store with a sayable collection, and the same store with one more, whose name has a newline. -/
def saidOps : List Op := [.addCollection (lit "T"), .addTriples (lit "T") (BSet.ofList [⟨lit "a b", lit ":", lit "say \\\"hi\\\""⟩])]
def unsaidOps : List Op := saidOps ++ [.addCollection (lit "a\nb"), .addTriples (lit "a\nb") (BSet.ofList [⟨lit "x", lit "r", lit "y"⟩])]

theorem said_store : SayableStore Mem.ops (runOps Mem.ops Mem.new saidOps).2 := by
  have hs : (runOps Mem.ops Mem.new saidOps).2 =
      ⟨(∅ : BMap Str (BSet Trip)).insert (lit "T") (BSet.ofList [⟨lit "a b", lit ":", lit "say \\\"hi\\\""⟩])⟩ := by decide +kernel
  rw [hs]
  constructor
  · rintro c ⟨l, h1, h2⟩
    have h1 : [lit "T"] = l := by injection h1
    subst h1
    rw [List.mem_singleton] at h2
    subst h2
    exact plain_stringBody (by unfold Special; decide)
  · intro c ts h t ht x hx
    by_cases hc : c = lit "T"
    · subst hc
      have : ts = BSet.ofList [⟨lit "a b", lit ":", lit "say \\\"hi\\\""⟩] := by injection h with h; exact h.symm
      subst this
      have : t = ⟨lit "a b", lit ":", lit "say \\\"hi\\\""⟩ := by
        rw [BSet.mem_ofList, List.mem_singleton] at ht; exact ht
      subst this
      simp only [tripTexts, List.mem_cons, List.not_mem_nil, or_false] at hx
      rcases hx with rfl | rfl | rfl
      · exact plain_stringBody (by unfold Special; decide)
      · exact plain_stringBody (by unfold Special; decide)
      · exact sayable_escape
    · simp only [Mem.ops, Mem.triples, BMap.get?_insert_ne _ _ hc] at h
      cases h

example : Agrees Mem.ops (runOps Mem.ops Mem.new saidOps).2 (Mem.world (runOps Mem.ops Mem.new saidOps).2) ∧
    Fits64 Mem.ops (runOps Mem.ops Mem.new saidOps).2 ∧ Heed.lmdbKey (lit "T") = true :=
  ⟨Mem.agrees _, ⟨[(lit "T", BSet.ofList [⟨lit "a b", lit ":", lit "say \\\"hi\\\""⟩])], by decide +kernel, by decide +kernel, by decide +kernel⟩,
    by decide +kernel⟩

/-- C92: operations make stores that no scripts make. -/
theorem C92_some_unsayable : ∃ l : List Op, ∀ scripts, afterScripts (Graph.ops Mem.ops) scripts Mem.new ≠ (runOps Mem.ops Mem.new l).2 := by
  refine ⟨unsaidOps, fun scripts e => ?_⟩
  have := (C92_stores _).1.mp ⟨scripts, e⟩
  exact unsayable_newline (this.1 _ ⟨_, rfl, by decide +kernel⟩)

/-- `unsaidOps` makes, on each store, a collection that `C92_untouchable` is about, with an entry in it. -/
example : ¬ StringBody (Element.of (lit "a\nb")).text ∧ Listed Heed.ops (runOps Heed.ops Heed.new unsaidOps).2 (lit "a\nb") ∧
    (Graph.ops Duck.ops).entries (runOps Duck.ops Duck.new unsaidOps).2 (.of (lit "a\nb")) = .ok (BSet.ofList [.role (el "x") (el "y") (el "r")]) :=
  ⟨unsayable_newline, ⟨_, rfl, by decide +kernel⟩, by decide +kernel⟩

/-- The two stores differ, and no script can tell. -/
example : (runOps Mem.ops Mem.new saidOps).2 ≠ (runOps Mem.ops Mem.new unsaidOps).2 ∧
    ∀ script, (run Graph.memOps common script (runOps Mem.ops Mem.new saidOps).2).1 = (run Graph.memOps common script (runOps Mem.ops Mem.new unsaidOps).2).1 := by
  refine ⟨by decide +kernel, C92_unseen _ _ fun c hc => ?_⟩
  have hne : c.text ≠ lit "a\nb" := fun e => unsayable_newline (e ▸ hc)
  have hs : (runOps Mem.ops Mem.new unsaidOps).2 = ⟨(runOps Mem.ops Mem.new saidOps).2.colls.insert (lit "a\nb") (BSet.ofList [⟨lit "x", lit "r", lit "y"⟩])⟩ := by
    decide +kernel
  rw [hs]
  simp only [Graph.memOps, Graph.ops, Graph.entries, Mem.ops, Mem.triples, BMap.get?_insert_ne _ _ hne]

/-- `C92_unseen_duck` on the same two histories. -/
example : (runOps Duck.ops Duck.new saidOps).2 ≠ (runOps Duck.ops Duck.new unsaidOps).2 ∧
    ∀ script, (run (Graph.ops Duck.ops) common script (runOps Duck.ops Duck.new saidOps).2).1 =
      (run (Graph.ops Duck.ops) common script (runOps Duck.ops Duck.new unsaidOps).2).1 := by
  refine ⟨by decide +kernel, fun script => C92_unseen_duck saidOps unsaidOps script fun c hc => ?_⟩
  have hne : c.text ≠ lit "a\nb" := fun e => unsayable_newline (e ▸ hc)
  have h1 := C33_duck saidOps (.addCollection (lit "a\nb")) c.text hne
  have h2 := C33_duck (saidOps ++ [.addCollection (lit "a\nb")])
    (.addTriples (lit "a\nb") (BSet.ofList [⟨lit "x", lit "r", lit "y"⟩])) c.text hne
  exact ⟨(h2.2.trans h1.2).symm, congrArg (Res.map _) (h2.1.trans h1.1).symm⟩

/-- `C92_unseen_heed` on the same two histories and a script. -/
example : (runOps Heed.ops Heed.new saidOps).2 ≠ (runOps Heed.ops Heed.new unsaidOps).2 ∧
    (run (Graph.ops Heed.ops) common (lit "let U {a r b}, read T") (runOps Heed.ops Heed.new saidOps).2).1 =
      (run (Graph.ops Heed.ops) common (lit "let U {a r b}, read T") (runOps Heed.ops Heed.new unsaidOps).2).1 := by
  refine ⟨by decide +kernel, C92_unseen_heed saidOps unsaidOps _ ?_ (by decide +kernel) (by decide +kernel) fun c hc => ?_⟩
  · intro calls hm c hc n hn
    have hm' : Means (lit "let U {a r b}, read T")
        [⟨el "let", [.element (el "U"), .network (BSet.ofList [.role (el "a") (el "b") (el "r")])]⟩, ⟨el "read", [.element (el "T")]⟩] :=
      ⟨_, rfl, parse_ok_iff.mp (by decide +kernel)⟩
    obtain ⟨ts, ht, hp⟩ := hm
    obtain ⟨ts', ht', hp'⟩ := hm'
    cases ht.symm.trans ht'
    cases (parse_ok_iff.mpr hp).symm.trans (parse_ok_iff.mpr hp')
    simp only [List.mem_cons, List.not_mem_nil, or_false] at hc
    rcases hc with rfl | rfl
    · rcases hn with ⟨_, rest, h⟩ | h
      · simp only [List.cons.injEq, Value.element.injEq] at h
        rw [← h.1]; decide +kernel
      · simp only [UsesInList, UsesIn, or_false] at h
    · rcases hn with ⟨_, rest, h⟩ | h
      · simp only [List.cons.injEq, Value.element.injEq] at h
        rw [← h.1]; decide +kernel
      · simp only [UsesInList, UsesIn, or_false] at h
  have hne : c.text ≠ lit "a\nb" := fun e => unsayable_newline (e ▸ hc)
  have h1 := heed_refines.isolated (heed_good saidOps) (.addCollection (lit "a\nb")) c.text hne
  have h2 := heed_refines.isolated (heed_good (saidOps ++ [.addCollection (lit "a\nb")]))
    (.addTriples (lit "a\nb") (BSet.ofList [⟨lit "x", lit "r", lit "y"⟩])) c.text hne
  exact ⟨(h2.2.trans h1.2).symm, congrArg (Res.map _) (h2.1.trans h1.1).symm⟩

end Props
end Verif
