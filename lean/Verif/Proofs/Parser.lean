import Verif.Spec.Parser
/-!
# Proofs about the parser
-/
namespace Verif
namespace Parser
open Spec

theorem mkEntry_iff {a b c : Element} {e : Entry} : ReadsEntry a b c e ↔ mkEntry a b c = e := by
  constructor
  · intro h
    cases h with
    | «extends» => rfl
    | notExtends => rfl
    | role _ _ h1 h2 => rw [mkEntry, if_neg (show b ≠ Element.of colonS from h1), if_neg (show b ≠ Element.of notColonS from h2)]
  · rintro rfl
    rw [mkEntry]
    split
    · rename_i h; subst h; exact .extends _ _
    · rename_i h1
      split
      · rename_i h; subst h; exact .notExtends _ _
      · rename_i h2; exact .role _ _ _ h1 h2

/-! ## Networks -/

theorem net_complete {pre : List Token} {es : List Entry} (h : Entries pre es) (rest : List Token) (acc : Network) :
    readNetwork (pre ++ rest) acc = .ok (acc.insertAll es, rest) := by
  induction h generalizing acc with
  | close => simp [readNetwork, BSet.insertAll]
  | last h => rw [mkEntry_iff] at h; subst h; simp [readNetwork, BSet.insertAll]
  | more h _ ih => rw [mkEntry_iff] at h; subst h; simp [readNetwork, BSet.insertAll] at ih ⊢; exact ih _

theorem net_sound : ∀ (ts : List Token) (acc : Network) {n : Network} {rest : List Token}, readNetwork ts acc = .ok (n, rest) →
    ∃ pre es, ts = pre ++ rest ∧ Entries pre es ∧ n = acc.insertAll es := by
  intro ts acc
  induction ts, acc using readNetwork.induct with
  | case1 rest' acc =>
    intro n rest h
    rw [readNetwork] at h
    cases h
    exact ⟨[.closeBrace], [], rfl, .close, rfl⟩
  | case2 acc a b c rest' ih =>
    intro n rest h
    rw [readNetwork] at h
    obtain ⟨pre, es, rfl, he, rfl⟩ := ih h
    exact ⟨_, _, rfl, .more (mkEntry_iff.mpr rfl) he, rfl⟩
  | case3 acc a b c rest' =>
    intro n rest h
    rw [readNetwork] at h
    cases h
    exact ⟨[_, _, _, _], [_], rfl, .last (mkEntry_iff.mpr rfl), rfl⟩
  | case4 acc a b c rest' h1 h2 =>
    intro n rest h
    rw [readNetwork.eq_def] at h
    split at h <;> simp_all
  | case5 acc ts h1 h2 h3 h4 =>
    intro n rest h
    rw [readNetwork.eq_def] at h
    split at h
    · exact absurd rfl (h1 _)
    · exact absurd rfl (h2 _ _ _ _)
    · exact absurd rfl (h3 _ _ _ _)
    · cases h
    · cases h

theorem entries_ne {pre : List Token} {es : List Entry} (h : Entries pre es) : 0 < pre.length := by
  cases h <;> simp

theorem networkLit_iff {ts : List Token} {n : Network} :
    NetworkLit ts n ↔ ∃ body es, ts = .openBrace :: body ∧ Entries body es ∧ n = (∅ : Network).insertAll es := by
  constructor
  · rintro ⟨body, es, rfl, h, hn⟩
    refine ⟨body, es, rfl, h, BSet.ext ?_⟩
    intro e; rw [hn]; simp
  · rintro ⟨body, es, rfl, h, rfl⟩
    exact ⟨body, es, rfl, h, by intro e; simp⟩

theorem net_not_ok {r : List Token} (h : ¬ ∃ body es rest, r = body ++ rest ∧ Entries body es) (acc : Network) :
    ∀ x, readNetwork r acc ≠ .ok x := by
  rintro ⟨n, rest⟩ hx
  obtain ⟨pre, es, he, hp, _⟩ := net_sound r acc hx
  exact h ⟨pre, es, rest, he, hp⟩

/-! ## Quotes -/

theorem quote_complete {pre : List Token} {vs : List Value} (h : Items pre vs) (rest : List Token) : ∀ (f : Nat) (acc : List Value),
    pre.length ≤ f → readQuote f (pre ++ rest) acc = .ok (acc ++ vs, rest) := by
  induction h with
  | close =>
    intro f acc hf
    obtain ⟨f, rfl⟩ : ∃ g, f = g + 1 := ⟨f - 1, by simp at hf; omega⟩
    simp [readQuote]
  | element _ ih =>
    intro f acc hf
    obtain ⟨f, rfl⟩ : ∃ g, f = g + 1 := ⟨f - 1, by simp at hf; omega⟩
    simp only [List.cons_append, readQuote]
    rw [ih f _ (by simp at hf; omega)]
    simp
  | network hn _ ih =>
    intro f acc hf
    rw [networkLit_iff] at hn
    obtain ⟨body, es, rfl, he, rfl⟩ := hn
    obtain ⟨f, rfl⟩ : ∃ g, f = g + 1 := ⟨f - 1, by simp at hf; omega⟩
    simp only [List.cons_append, List.append_assoc, readQuote]
    rw [net_complete he]
    simp only
    rw [ih f _ (by simp at hf; omega)]
    simp

theorem quote_sound : ∀ (f : Nat) (ts : List Token) (acc vs : List Value) (rest : List Token), readQuote f ts acc = .ok (vs, rest) →
    ∃ pre ws, ts = pre ++ rest ∧ Items pre ws ∧ vs = acc ++ ws := by
  intro f
  induction f with
  | zero => intro ts acc vs rest h; cases h
  | succ f ih =>
    intro ts acc vs rest h
    rw [readQuote.eq_def] at h
    simp only at h
    split at h
    · obtain ⟨pre, ws, rfl, hi, rfl⟩ := ih _ _ _ _ h
      exact ⟨_, _, rfl, .element hi, by simp⟩
    · cases h; exact ⟨[.closeParen], [], rfl, .close, by simp⟩
    · split at h
      · rename_i hr
        obtain ⟨b, es, rfl, he, rfl⟩ := net_sound _ _ hr
        obtain ⟨pre, ws, rfl, hi, rfl⟩ := ih _ _ _ _ h
        exact ⟨_, _, show _ = (.openBrace :: b) ++ pre ++ rest by simp, .network (networkLit_iff.mpr ⟨b, es, rfl, he, rfl⟩) hi, by simp⟩
      · cases h
      · cases h
    · cases h

theorem items_ne {pre : List Token} {vs : List Value} (h : Items pre vs) : 0 < pre.length := by
  induction h with
  | close => simp
  | element => simp
  | network _ _ ih => simp; omega

/-! ## Values -/

theorem valueLit_ne {pre : List Token} {v : Value} (h : ValueLit pre v) : 0 < pre.length := by
  cases h with
  | element => simp
  | string => simp
  | network h => obtain ⟨b, _, rfl, _⟩ := h; simp
  | quote => simp

/-- Reading one value at the front of a call. -/
theorem call_value {pre : List Token} {v : Value} (h : ValueLit pre v) (rest : List Token) (f : Nat) (acc : List Value) :
    readCall (f + 1) (pre ++ rest) acc = readCall f rest (acc ++ [v]) := by
  cases h with
  | element => simp [readCall]
  | string => simp [readCall]
  | network h =>
    obtain ⟨b, es, rfl, he, rfl⟩ := networkLit_iff.mp h
    simp only [List.cons_append, readCall]
    rw [net_complete he]
  | quote h =>
    simp only [List.cons_append, readCall]
    rw [quote_complete h rest _ _ (by simp; omega)]
    simp

/-- Every nonempty token list begins with a value, a comma, a foreign token or a bad literal. -/
theorem front_cases (t : Token) (ts : List Token) :
    (∃ pre v rest, t :: ts = pre ++ rest ∧ ValueLit pre v) ∨ t = .comma ∨ Foreign t ∨ BadLiteral (t :: ts) := by
  cases t with
  | element e => exact .inl ⟨[.element e], _, ts, rfl, .element e⟩
  | string s => exact .inl ⟨[.string s], _, ts, rfl, .string s⟩
  | comma => exact .inr (.inl rfl)
  | openBrace =>
    by_cases h : ∃ body es rest, ts = body ++ rest ∧ Entries body es
    · obtain ⟨b, es, rest, rfl, he⟩ := h
      exact .inl ⟨.openBrace :: b, _, rest, rfl, .network (networkLit_iff.mpr ⟨b, es, rfl, he, rfl⟩)⟩
    · exact .inr (.inr (.inr (.inl ⟨ts, rfl, h⟩)))
  | openParen =>
    by_cases h : ∃ body es rest, ts = body ++ rest ∧ Items body es
    · obtain ⟨b, es, rest, rfl, he⟩ := h
      exact .inl ⟨.openParen :: b, _, rest, rfl, .quote he⟩
    · exact .inr (.inr (.inr (.inr ⟨ts, rfl, h⟩)))
  | _ => exact .inr (.inr (.inl trivial))

/-- How far the reading of one call goes. -/
theorem call_front : ∀ (n : Nat) (ts : List Token), ts.length ≤ n →
    ∃ cur vs rest, ts = cur ++ rest ∧ Values cur vs ∧
      (rest = [] ∨ (∃ r, rest = .comma :: r) ∨ (∃ t r, rest = t :: r ∧ Foreign t) ∨ BadLiteral rest) := by
  intro n
  induction n with
  | zero =>
    intro ts h
    cases ts with
    | nil => exact ⟨[], [], [], rfl, .nil, .inl rfl⟩
    | cons => simp at h
  | succ n ih =>
    intro ts h
    cases ts with
    | nil => exact ⟨[], [], [], rfl, .nil, .inl rfl⟩
    | cons t ts =>
      rcases front_cases t ts with ⟨pre, v, rest, e, hv⟩ | rfl | hf | hb
      · have := valueLit_ne hv
        have hl := congrArg List.length e
        simp at hl h
        obtain ⟨cur, vs, rest', rfl, hvs, hc⟩ := ih rest (by omega)
        exact ⟨pre ++ cur, v :: vs, rest', by rw [e, List.append_assoc], .cons hv hvs, hc⟩
      · exact ⟨[], [], _, rfl, .nil, .inr (.inl ⟨ts, rfl⟩)⟩
      · exact ⟨[], [], _, rfl, .nil, .inr (.inr (.inl ⟨t, ts, rfl, hf⟩))⟩
      · exact ⟨[], [], _, rfl, .nil, .inr (.inr (.inr hb))⟩

/-- Reading complete values. -/
theorem call_values {cur : List Token} {vs : List Value} (h : Values cur vs) (rest : List Token) : ∀ (f : Nat) (acc : List Value),
    cur.length < f → ∃ f', readCall f (cur ++ rest) acc = readCall (f' + 1) rest (acc ++ vs) ∧ f ≤ f' + 1 + cur.length := by
  induction h with
  | nil => intro f acc hf; exact ⟨f - 1, by rw [show f - 1 + 1 = f by simp at hf; omega]; simp, by omega⟩
  | cons hv _ ih =>
    intro f acc hf
    have := valueLit_ne hv
    obtain ⟨f, rfl⟩ : ∃ g, f = g + 1 := ⟨f - 1, by omega⟩
    simp at hf
    obtain ⟨f', h1, h2⟩ := ih f (acc ++ [_]) (by omega)
    refine ⟨f', ?_, by simp; omega⟩
    rw [List.append_assoc, call_value hv, h1]
    simp

theorem call_end {cur : List Token} {vs : List Value} (h : Values cur vs) {f : Nat} (hf : cur.length < f) :
    readCall f cur [] = .ok (vs, []) := by
  obtain ⟨f', h1, _⟩ := call_values h [] f [] hf
  rw [List.append_nil] at h1
  rw [h1]; simp [readCall]

theorem call_comma {cur : List Token} {vs : List Value} (h : Values cur vs) (r : List Token) {f : Nat} (hf : cur.length < f) :
    readCall f (cur ++ .comma :: r) [] = .ok (vs, r) := by
  obtain ⟨f', h1, _⟩ := call_values h (.comma :: r) f [] hf
  rw [h1]; simp [readCall]

theorem call_foreign {cur : List Token} {vs : List Value} (h : Values cur vs) {t : Token} (r : List Token) (ht : Foreign t) {f : Nat}
    (hf : cur.length < f) : readCall f (cur ++ t :: r) [] = .err (lit "Error parsing " ++ Debug.option Debug.token r.head?) := by
  obtain ⟨f', h1, _⟩ := call_values h (t :: r) f [] hf
  rw [h1]
  cases t <;> simp [Foreign] at ht <;> simp [readCall]

theorem call_bad {cur : List Token} {vs : List Value} (h : Values cur vs) {r : List Token} (hr : BadLiteral r) {f : Nat}
    (hf : cur.length < f) : readCall f (cur ++ r) [] = .panic := by
  obtain ⟨f', h1, _⟩ := call_values h r f [] hf
  rw [h1]
  rcases hr with ⟨r, rfl, hn⟩ | ⟨r, rfl, hn⟩
  · rw [readCall]
    have := net_not_ok hn ∅
    split
    · rename_i e; exact absurd e (this _)
    · rfl
  · rw [readCall]
    split
    · rename_i vs' rest' e
      obtain ⟨pre, ws, he, hi, _⟩ := quote_sound _ _ _ _ _ e
      exact absurd ⟨pre, ws, rest', he, hi⟩ hn
    · rfl

/-! ## Programs -/

/-- The outer loop, on a nonempty list. -/
theorem parse_step {ts : List Token} (hne : ts ≠ []) {f : Nat} (acc : List Call) : parseLoop (f + 1) ts acc =
    match readCall (ts.length + 1) ts [] with
    | .panic => .panic
    | .err m => .err m
    | .ok (current, rest) =>
      match current with
      | .element name :: args => parseLoop f rest (acc ++ [⟨name, args⟩])
      | _ => .panic := by
  cases ts with
  | nil => exact absurd rfl hne
  | cons t ts => rw [parseLoop]; rfl

theorem callLit_ne {ts : List Token} {c : Call} (h : CallLit ts c) : 0 < ts.length := by
  cases h with
  | cons hv _ => have := valueLit_ne hv; simp; omega

theorem parse_call_comma {ts : List Token} {c : Call} (h : CallLit ts c) (r : List Token) (f : Nat) (acc : List Call) :
    parseLoop (f + 1) (ts ++ .comma :: r) acc = parseLoop f r (acc ++ [c]) := by
  rw [parse_step (by simp), call_comma h r (by simp; omega)]

theorem done_loop {done : List Token} (h : Done done) (r : List Token) : ∃ cs, ∀ (f : Nat) (acc : List Call), done.length ≤ f →
    ∃ f', f ≤ f' + done.length ∧ parseLoop f (done ++ r) acc = parseLoop f' r (acc ++ cs) := by
  induction h with
  | nil => exact ⟨[], fun f acc _ => ⟨f, by simp, by simp⟩⟩
  | @more ts c us hc _ ih =>
    obtain ⟨cs, ih⟩ := ih
    refine ⟨c :: cs, ?_⟩
    intro f acc hf
    have := callLit_ne hc
    simp at hf
    obtain ⟨f, rfl⟩ : ∃ g, f = g + 1 := ⟨f - 1, by omega⟩
    obtain ⟨f', h1, h2⟩ := ih f (acc ++ [c]) (by omega)
    refine ⟨f', by simp; omega, ?_⟩
    rw [List.append_assoc, List.cons_append, parse_call_comma hc, h2]
    simp

theorem parse_complete {ts : List Token} {cs : List Call} (h : Program ts cs) : ∀ (f : Nat) (acc : List Call), ts.length < f →
    parseLoop f ts acc = .ok (acc ++ cs) := by
  induction h with
  | nil =>
    intro f acc hf
    obtain ⟨f, rfl⟩ : ∃ g, f = g + 1 := ⟨f - 1, by simp at hf; omega⟩
    simp [parseLoop]
  | last hc =>
    intro f acc hf
    have := callLit_ne hc
    obtain ⟨f, rfl⟩ : ∃ g, f = g + 2 := ⟨f - 2, by omega⟩
    rw [parse_step (by rintro rfl; simp at this), call_end hc (by omega)]
    simp only [parseLoop]
  | more hc _ ih =>
    intro f acc hf
    simp at hf
    obtain ⟨f, rfl⟩ : ∃ g, f = g + 1 := ⟨f - 1, by omega⟩
    rw [parse_call_comma hc, ih f _ (by omega)]
    simp

theorem foreign_msg {ts rest : List Token} (h : ForeignThen ts rest) :
    parse ts = .err (lit "Error parsing " ++ Debug.option Debug.token rest.head?) := by
  obtain ⟨done, cur, vs, t, rfl, hd, hv, ht⟩ := h
  obtain ⟨cs, hl⟩ := done_loop hd (cur ++ t :: rest)
  obtain ⟨f', h1, h2⟩ := hl ((done ++ cur ++ t :: rest).length + 1) [] (by simp; omega)
  rw [parse, List.append_assoc]
  rw [List.append_assoc] at h1 h2
  rw [h2]
  simp at h1
  obtain ⟨f', rfl⟩ : ∃ g, f' = g + 1 := ⟨f' - 1, by omega⟩
  rw [parse_step (by simp), call_foreign hv rest ht (by simp; omega)]

theorem foreign_err {ts : List Token} (h : HasForeign ts) : ∃ m, parse ts = .err m := by
  obtain ⟨rest, h⟩ := h
  exact ⟨_, foreign_msg h⟩

theorem badCall_panic {ts : List Token} (h : HasBadCall ts) : parse ts = .panic := by
  obtain ⟨done, cur, vs, rest, rfl, hd, hv, h⟩ := h
  obtain ⟨cs, hl⟩ := done_loop hd (cur ++ rest)
  obtain ⟨f', h1, h2⟩ := hl ((done ++ cur ++ rest).length + 1) [] (by simp; omega)
  rw [parse, List.append_assoc]
  rw [List.append_assoc] at h1 h2
  rw [h2]
  simp at h1
  obtain ⟨f', rfl⟩ : ∃ g, f' = g + 1 := ⟨f' - 1, by omega⟩
  have named : ∀ rest', ¬ Named vs → (match vs with
      | .element name :: args => parseLoop f' rest' ([] ++ cs ++ [Call.mk name args])
      | _ => Res.panic) = Res.panic := by
    intro rest' hn
    split
    · rename_i name args; exact absurd ⟨name, args, rfl⟩ hn
    · rfl
  rcases h with hb | ⟨hn, ⟨rfl, hne⟩ | ⟨r, rfl⟩⟩
  · rw [parse_step, call_bad hv hb (by simp; omega)]
    rcases hb with ⟨r, rfl, _⟩ | ⟨r, rfl, _⟩ <;> simp
  · rw [List.append_nil, parse_step hne, call_end hv (by simp)]
    exact named _ hn
  · rw [parse_step (by simp), call_comma hv r (by simp; omega)]
    exact named _ hn

/-- Every token list is a program, has a foreign token, or has a bad call. -/
theorem trichotomy : ∀ (n : Nat) (ts : List Token), ts.length ≤ n → (∃ cs, Program ts cs) ∨ HasForeign ts ∨ HasBadCall ts := by
  intro n
  induction n with
  | zero =>
    intro ts h
    cases ts with
    | nil => exact .inl ⟨[], .nil⟩
    | cons => simp at h
  | succ n ih =>
    intro ts h
    obtain ⟨cur, vs, rest, rfl, hv, hc⟩ := call_front _ ts (Nat.le_refl _)
    rcases hc with rfl | ⟨r, rfl⟩ | ⟨t, r, rfl, ht⟩ | hb
    · by_cases hcur : cur = []
      · subst hcur; exact .inl ⟨[], .nil⟩
      · by_cases hn : Named vs
        · obtain ⟨e, args, rfl⟩ := hn
          exact .inl ⟨[⟨e, args⟩], by rw [List.append_nil]; exact .last hv⟩
        · exact .inr (.inr ⟨[], cur, vs, [], rfl, .nil, hv, .inr ⟨hn, .inl ⟨rfl, hcur⟩⟩⟩)
    · by_cases hn : Named vs
      · obtain ⟨e, args, rfl⟩ := hn
        have hcl : CallLit cur ⟨e, args⟩ := hv
        simp at h
        rcases ih r (by omega) with ⟨cs, hp⟩ | ⟨rest, done, cur', vs', t, rfl, hd, hv', ht⟩ | ⟨done, cur', vs', rest, rfl, hd, hv', hb⟩
        · exact .inl ⟨_, .more hcl hp⟩
        · exact .inr (.inl ⟨rest, cur ++ .comma :: done, cur', vs', t, by simp, .more hcl hd, hv', ht⟩)
        · exact .inr (.inr ⟨cur ++ .comma :: done, cur', vs', rest, by simp, .more hcl hd, hv', hb⟩)
      · exact .inr (.inr ⟨[], cur, vs, _, rfl, .nil, hv, .inr ⟨hn, .inr ⟨r, rfl⟩⟩⟩)
    · exact .inr (.inl ⟨r, [], cur, vs, t, rfl, .nil, hv, ht⟩)
    · exact .inr (.inr ⟨[], cur, vs, rest, rfl, .nil, hv, .inl hb⟩)

theorem program_parse {ts : List Token} {cs : List Call} (h : Program ts cs) : parse ts = .ok cs := by
  rw [parse, parse_complete h _ _ (by omega)]; rfl

theorem parse_ok_iff {ts : List Token} {cs : List Call} : parse ts = .ok cs ↔ Program ts cs := by
  constructor
  · intro h
    rcases trichotomy _ ts (Nat.le_refl _) with ⟨cs', hp⟩ | hf | hb
    · have := program_parse hp
      rw [h] at this; cases this; exact hp
    · obtain ⟨m', hm⟩ := foreign_err hf
      rw [hm] at h; cases h
    · rw [badCall_panic hb] at h; cases h
  · exact program_parse

theorem parse_err_iff {ts : List Token} {m : Str} : parse ts = .err m ↔
    ∃ rest, ForeignThen ts rest ∧ m = lit "Error parsing " ++ Debug.option Debug.token rest.head? := by
  constructor
  · intro h
    rcases trichotomy _ ts (Nat.le_refl _) with ⟨cs', hp⟩ | ⟨rest, hf⟩ | hb
    · rw [program_parse hp] at h; cases h
    · have := foreign_msg hf
      rw [h] at this; cases this; exact ⟨rest, hf, rfl⟩
    · rw [badCall_panic hb] at h; cases h
  · rintro ⟨rest, h, rfl⟩; exact foreign_msg h

theorem parse_panic_iff {ts : List Token} : parse ts = .panic ↔ HasBadCall ts := by
  constructor
  · intro h
    rcases trichotomy _ ts (Nat.le_refl _) with ⟨cs', hp⟩ | hf | hb
    · rw [program_parse hp] at h; cases h
    · obtain ⟨m', hm⟩ := foreign_err hf
      rw [hm] at h; cases h
    · exact hb
  · exact badCall_panic

end Parser
end Verif
