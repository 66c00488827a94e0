import Verif.Proofs.Lexer
/-!
# Proofs about `tokenize` and `tokenize_and_filter`
-/
namespace Verif
namespace Lexer
open Spec

def tokErr : Str := lit "Error tokenizing input."

/-- More fuel than characters changes nothing, and the accumulator is a prefix of the result. -/
theorem loop_fuel : ∀ (n : Nat) (s : Str) (f : Nat) (acc : List Token), s.length ≤ n → s.length ≤ f →
    tokenizeLoop f s acc = (tokenizeLoop s.length s []).map (acc ++ ·) := by
  intro n
  induction n with
  | zero =>
    intro s f acc h _
    cases s with
    | nil => cases f <;> simp [tokenizeLoop, Res.map]
    | cons => simp at h
  | succ n ih =>
    intro s f acc h hf
    cases s with
    | nil => cases f <;> simp [tokenizeLoop, Res.map]
    | cons c cs =>
      simp only [List.length_cons] at h hf
      obtain ⟨f, rfl⟩ : ∃ f', f = f' + 1 := ⟨f - 1, by omega⟩
      rw [List.length_cons, tokenizeLoop, tokenizeLoop]
      cases hl : lexStep (c :: cs) with
      | none => rfl
      | some p =>
        obtain ⟨k, m⟩ := p
        have hb := lexStep_best.mp hl
        obtain ⟨t, ht, -, -⟩ := mkToken_denotes hb.2.2.1
        simp only [ht]
        have hlen : ((c :: cs).drop m).length ≤ cs.length := by
          have := hb.1; simp; omega
        rw [ih _ f (acc ++ [t]) (by omega) (by omega), ih _ cs.length ([] ++ [t]) (by omega) hlen]
        cases tokenizeLoop ((c :: cs).drop m).length ((c :: cs).drop m) [] <;> simp [Res.map]

theorem tokenize_nil : tokenize [] = .ok [] := rfl

theorem tokenize_none {s : Str} (hs : s ≠ []) (h : scan s = none) : tokenize s = .err tokErr := by
  cases s with
  | nil => exact absurd rfl hs
  | cons c cs => rw [tokenize, List.length_cons, tokenizeLoop, lexStep_eq, h]; rfl

theorem tokenize_some {s : Str} {k : Kind} {n : Nat} {t : Token} (h : scan s = some (k, n)) (ht : mkToken k (s.take n) = some t) :
    tokenize s = (tokenize (s.drop n)).map (t :: ·) := by
  cases s with
  | nil => cases h
  | cons c cs =>
    rw [tokenize, List.length_cons, tokenizeLoop, lexStep_eq, h]
    simp only [ht]
    have hb := scan_iff.mp h
    rw [loop_fuel _ _ cs.length _ (Nat.le_refl _) (by have := hb.1; simp; omega)]
    rfl

/-- The three ways one step of `tokenize` can go. -/
theorem tokenize_cases (s : Str) :
    (s = [] ∧ tokenize s = .ok []) ∨ (s ≠ [] ∧ NoMatch s ∧ tokenize s = .err tokErr) ∨
    ∃ k n t, Best s k n ∧ mkToken k (s.take n) = some t ∧ Denotes (k, s.take n) t ∧ tokenText t = s.take n ∧
      tokenize s = (tokenize (s.drop n)).map (t :: ·) := by
  by_cases hs : s = []
  · left; subst hs; exact ⟨rfl, rfl⟩
  · right
    cases h : scan s with
    | none => exact .inl ⟨hs, noMatch_iff.mpr (scan_none.mp h), tokenize_none hs h⟩
    | some p =>
      obtain ⟨k, n⟩ := p
      have hb := scan_iff.mp h
      obtain ⟨t, h1, h2, h3⟩ := mkToken_denotes hb.2.2.1
      exact .inr ⟨k, n, t, best_iff.mpr hb, h1, h2, h3, tokenize_some h h1⟩

/-- Every script is either cut completely into best matches or stuck at some place. -/
theorem tokenize_total : ∀ (n : Nat) (s : Str), s.length ≤ n →
    (∃ ts, Tokenized s ts ∧ tokenize s = .ok ts ∧ ts.flatMap tokenText = s) ∨ (Stuck s ∧ tokenize s = .err tokErr) := by
  intro n
  induction n with
  | zero =>
    intro s h
    cases s with
    | nil => exact .inl ⟨[], .nil, rfl, rfl⟩
    | cons => simp at h
  | succ n ih =>
    intro s h
    rcases tokenize_cases s with ⟨rfl, _⟩ | ⟨hs, hn, he⟩ | ⟨k, m, t, hb, h1, h2, h3, h4⟩
    · exact .inl ⟨[], .nil, rfl, rfl⟩
    · exact .inr ⟨.here hs hn, he⟩
    · have hb0 := hb.1
      have hb1 := hb.2.1
      rcases ih (s.drop m) (by simp; omega) with ⟨ts, ht, e, ec⟩ | ⟨hst, e⟩
      · refine .inl ⟨t :: ts, .cons hb h2 ht, by rw [h4, e]; rfl, ?_⟩
        rw [List.flatMap_cons, h3, ec, List.take_append_drop]
      · exact .inr ⟨.later hb hst, by rw [h4, e]; rfl⟩

theorem tokenized_unique {s : Str} {ts ts' : List Token} (h : Tokenized s ts) (h' : Tokenized s ts') : ts = ts' := by
  induction h generalizing ts' with
  | nil =>
    cases h' with
    | nil => rfl
    | cons hb _ _ => exact absurd (show _ < _ from hb.1) (by have := hb.2.1; simp at this; omega)
  | cons hb hd _ ih =>
    cases h' with
    | nil => exact absurd (show _ < _ from hb.1) (by have := hb.2.1; simp at this; omega)
    | cons hb' hd' ht' =>
      obtain ⟨rfl, rfl⟩ := best_unique (best_iff.mp hb) (best_iff.mp hb')
      rw [denotes_unique hd hd', ih ht']

theorem tokenized_not_stuck {s : Str} {ts : List Token} (h : Tokenized s ts) (h' : Stuck s) : False := by
  induction h with
  | nil =>
    cases h' with
    | here hs _ => exact hs rfl
    | later hb _ => have := hb.1; have := hb.2.1; simp at this; omega
  | cons hb hd _ ih =>
    cases h' with
    | here hs hn => exact best_noMatch (best_iff.mp hb) (noMatch_iff.mp hn)
    | later hb' hs =>
      obtain ⟨rfl, rfl⟩ := best_unique (best_iff.mp hb) (best_iff.mp hb')
      exact ih hs

theorem tokenize_ok_iff {s : Str} {ts : List Token} : tokenize s = .ok ts ↔ Tokenized s ts := by
  rcases tokenize_total _ s (Nat.le_refl _) with ⟨ts', ht, e, _⟩ | ⟨hs, e⟩
  · rw [e]
    constructor
    · intro h; cases h; exact ht
    · intro h; rw [tokenized_unique h ht]
  · rw [e]
    constructor
    · intro h; cases h
    · intro h; exact (tokenized_not_stuck h hs).elim

theorem tokenize_err_iff {s : Str} {m : Str} : tokenize s = .err m ↔ m = tokErr ∧ Stuck s := by
  rcases tokenize_total _ s (Nat.le_refl _) with ⟨ts', ht, e, _⟩ | ⟨hs, e⟩
  · rw [e]
    constructor
    · intro h; cases h
    · rintro ⟨_, h⟩; exact (tokenized_not_stuck ht h).elim
  · rw [e]
    constructor
    · intro h; cases h; exact ⟨rfl, hs⟩
    · rintro ⟨rfl, _⟩; rfl

theorem tokenize_text {s : Str} {ts : List Token} (h : tokenize s = .ok ts) : ts.flatMap tokenText = s := by
  rcases tokenize_total _ s (Nat.le_refl _) with ⟨ts', _, e, ec⟩ | ⟨_, e⟩
  · rw [e] at h; cases h; exact ec
  · rw [e] at h; cases h

/-! ## Joining texts -/

/-- The tokens a parser gets from a list of tokens. -/
def filt (ts : List Token) : List Token := (ts.filter significant).map stringToElement

theorem filt_nil : filt [] = [] := rfl
theorem filt_cons (t : Token) (ts : List Token) : filt (t :: ts) = filt [t] ++ filt ts := by
  simp [filt, List.filter_cons]; split <;> simp
theorem filt_append (ts us : List Token) : filt (ts ++ us) = filt ts ++ filt us := by simp [filt]

theorem taf_eq (s : Str) : tokenizeAndFilter s = (tokenize s).map filt := rfl

/-- `r` after a piece `p` of kind `k` leaves the piece as it is. -/
def Stable (k : Kind) (p r : Str) : Prop :=
  match k with
  | .ws => ∀ c, r.head? = some c → isWs c = false
  | .element | .openSquare | .closeSquare => ∀ c, r.head? = some c → isIdent c = false
  | .comment => p.getLast? = some '\n' ∨ r = []
  | _ => True

theorem takeWhile_stable {q : Char → Bool} {a r : Str} (ha : ∀ c ∈ a, q c = true) (hr : ∀ c, r.head? = some c → q c = false) :
    (a ++ r).takeWhile q = a := by
  rw [List.takeWhile_append_of_pos ha]
  cases r with
  | nil => simp
  | cons c r => rw [List.takeWhile_cons, if_neg (by simp [hr c rfl])]; simp

theorem ident_scan {c : Char} {cs : Str} (hc : isIdent c = true) : scan (c :: cs) =
    if c = '-' ∧ cs.head? = some '-' then
        some (.comment, ((cs.drop 1).takeWhile (· != '\n')).length + 2 +
          (if ((cs.drop 1).drop ((cs.drop 1).takeWhile (· != '\n')).length).head? = some '\n' then 1 else 0))
      else if c = '[' ∧ (cs.takeWhile isIdent).length = 0 then some (.openSquare, 1)
      else if c = ']' ∧ (cs.takeWhile isIdent).length = 0 then some (.closeSquare, 1)
      else some (.element, (cs.takeWhile isIdent).length + 1) := by
  rw [scan, if_neg (by simp [ident_not_ws hc]), if_neg (by rintro rfl; revert hc; decide), if_neg (by rintro rfl; revert hc; decide),
    if_neg (by rintro rfl; revert hc; decide), if_neg (by rintro rfl; revert hc; decide), if_neg (by rintro rfl; revert hc; decide),
    if_neg (by rintro rfl; revert hc; decide), if_neg (by rintro rfl; revert hc; decide), if_pos hc]

/-- Exactly when a piece `p` of kind `k` is the next piece of `p ++ r`. -/
theorem scan_split {k : Kind} {p r : Str} : scan (p ++ r) = some (k, p.length) ↔
    k.re.Matches p ∧ Stable k p r ∧ (k = .element → ¬ ['-', '-'] <+: p ∧ p ≠ ['['] ∧ p ≠ [']']) := by
  constructor
  · intro h
    obtain ⟨h0, hl, hm, hx, ht⟩ := scan_iff.mp h
    rw [List.take_left' rfl] at hm ht
    have grow : ∀ (k' : Kind) (d : Char) (r' : Str), r = d :: r' → (Kind.re k').Matches (p ++ [d]) → False := by
      rintro k' d r' rfl hd
      have := hx k' (p.length + 1) (by simp) (by
        rw [show p ++ d :: r' = (p ++ [d]) ++ r' by simp, List.take_left' (by simp)]; exact hd)
      omega
    have hm' := hm
    rw [match_shape] at hm'
    refine ⟨hm, ?_, ?_⟩
    · cases k <;> simp only [Stable] <;> simp only at hm'
      case ws =>
        intro d hd
        cases r with
        | nil => cases hd
        | cons e r =>
          cases hd
          rw [← Bool.not_eq_true]
          intro hw
          refine grow .ws _ r rfl ((match_shape _ _).mpr ⟨by simp, ?_⟩)
          intro x hx; rw [List.mem_append, List.mem_singleton] at hx
          rcases hx with hx | rfl
          · exact hm'.2 x hx
          · exact hw
      case comment =>
        obtain ⟨b, hb, rfl | rfl⟩ := hm'
        · right
          cases r with
          | nil => rfl
          | cons d r =>
            exfalso
            refine grow .comment _ r rfl ((match_shape _ _).mpr ?_)
            by_cases hd : d = '\n'
            · subst hd; exact ⟨b, hb, .inr rfl⟩
            · exact ⟨b ++ [d], by simp [hb]; exact fun e => hd e.symm, .inl (by simp)⟩
        · left
          rw [show '-' :: '-' :: (b ++ ['\n']) = ('-' :: '-' :: b) ++ ['\n'] by simp, List.getLast?_concat]
      case element =>
        intro d hd
        cases r with
        | nil => cases hd
        | cons e r =>
          cases hd
          rw [← Bool.not_eq_true]
          intro hw
          refine grow .element _ r rfl ((match_shape _ _).mpr ⟨by simp, ?_⟩)
          intro x hx; rw [List.mem_append, List.mem_singleton] at hx
          rcases hx with hx | rfl
          · exact hm'.2 x hx
          · exact hw
      case openSquare =>
        intro d hd
        cases r with
        | nil => cases hd
        | cons e r =>
          cases hd
          rw [← Bool.not_eq_true]
          intro hw
          subst hm'
          refine grow .element _ r rfl ((match_shape _ _).mpr ⟨by simp, ?_⟩)
          intro x hx; rw [List.mem_append, List.mem_singleton, List.mem_singleton] at hx
          rcases hx with rfl | rfl
          · decide
          · exact hw
      case closeSquare =>
        intro d hd
        cases r with
        | nil => cases hd
        | cons e r =>
          cases hd
          rw [← Bool.not_eq_true]
          intro hw
          subst hm'
          refine grow .element _ r rfl ((match_shape _ _).mpr ⟨by simp, ?_⟩)
          intro x hx; rw [List.mem_append, List.mem_singleton, List.mem_singleton] at hx
          rcases hx with rfl | rfl
          · decide
          · exact hw
    · rintro rfl
      simp only at hm'
      refine ⟨?_, ?_, ?_⟩
      · rintro ⟨b, rfl⟩
        have hb : '\n' ∉ b := by
          intro hb
          have := hm'.2 '\n' (by simp [hb])
          revert this; decide
        rcases ht .comment ((match_shape _ _).mpr ⟨b, hb, .inl rfl⟩) with h | h
        · cases h
        · revert h; decide
      · rintro rfl
        rcases ht .openSquare ((match_shape _ _).mpr rfl) with h | h
        · cases h
        · revert h; decide
      · rintro rfl
        rcases ht .closeSquare ((match_shape _ _).mpr rfl) with h | h
        · cases h
        · revert h; decide
  · rintro ⟨hm, hst, he⟩
    rw [match_shape] at hm
    cases k <;> simp only [Stable] at hst <;> simp only at hm
    case ws =>
      obtain ⟨hne, hall⟩ := hm
      cases p with
      | nil => exact absurd rfl hne
      | cons c p =>
        rw [List.cons_append, scan, if_pos (hall c List.mem_cons_self),
          takeWhile_stable (fun x hx => hall x (List.mem_cons_of_mem _ hx)) hst]
        simp
    case string =>
      obtain ⟨b, rfl, hb⟩ := hm
      rw [show '"' :: (b ++ ['"']) ++ r = '"' :: (b ++ '"' :: r) by simp, scan, if_neg (by decide), if_pos rfl,
        scanBody_complete hb]
      simp
    case comment =>
      obtain ⟨b, hb, h⟩ := hm
      have hb' : ∀ c ∈ b, (c != '\n') = true := fun c hc => by simp only [bne_iff_ne]; rintro rfl; exact hb hc
      rcases h with rfl | rfl
      · have hr : r = [] := by
          rcases hst with h | h
          · exfalso
            rw [show '-' :: '-' :: b = ['-', '-'] ++ b by simp, List.getLast?_append] at h
            cases hg : b.getLast? with
            | none => rw [hg] at h; revert h; decide
            | some x =>
              rw [hg] at h; simp at h; subst h
              exact hb (List.mem_of_getLast? hg)
          · exact h
        subst hr
        rw [List.append_nil, ident_scan (by decide), if_pos ⟨rfl, rfl⟩]
        have := takeWhile_stable (q := (· != '\n')) (a := b) (r := []) hb' (by intro c h; cases h)
        rw [List.append_nil] at this
        simp only [List.drop_one, List.tail_cons, this, List.drop_length]
        simp
      · rw [show '-' :: '-' :: (b ++ ['\n']) ++ r = '-' :: '-' :: (b ++ '\n' :: r) by simp, ident_scan (by decide), if_pos ⟨rfl, rfl⟩]
        have := takeWhile_stable (q := (· != '\n')) (a := b) (r := '\n' :: r) hb' (by intro c h; cases h; rfl)
        simp only [List.drop_one, List.tail_cons, this, List.drop_left]
        simp
    case element =>
      obtain ⟨hne, hall⟩ := hm
      obtain ⟨e1, e2, e3⟩ := he rfl
      cases p with
      | nil => exact absurd rfl hne
      | cons c p =>
        have hp : ∀ x ∈ p, isIdent x = true := fun x hx => hall x (List.mem_cons_of_mem _ hx)
        rw [List.cons_append, ident_scan (hall c List.mem_cons_self), takeWhile_stable hp hst, if_neg, if_neg, if_neg]
        · simp
        · rintro ⟨rfl, h⟩; exact e3 (by rw [List.length_eq_zero_iff.mp h])
        · rintro ⟨rfl, h⟩; exact e2 (by rw [List.length_eq_zero_iff.mp h])
        · rintro ⟨rfl, h⟩
          cases p with
          | nil => exact absurd (hst '-' h) (by decide)
          | cons d p => cases h; exact e1 ⟨p, rfl⟩
    case openSquare =>
      subst hm
      have := takeWhile_stable (q := isIdent) (a := []) (by simp) hst
      rw [List.nil_append] at this
      rw [List.singleton_append, ident_scan (by decide), this]
      rfl
    case closeSquare =>
      subst hm
      have := takeWhile_stable (q := isIdent) (a := []) (by simp) hst
      rw [List.nil_append] at this
      rw [List.singleton_append, ident_scan (by decide), this]
      rfl
    all_goals (subst hm; rfl)

theorem res_map_map {α β γ} (f : α → β) (g : β → γ) (r : Res α) : (r.map f).map g = r.map (fun x => g (f x)) := by
  cases r <;> rfl

theorem res_map_id {α} (r : Res α) : r.map (fun x => x) = r := by cases r <;> rfl

/-- One more piece in front. -/
theorem taf_piece {k : Kind} {p r : Str} {t : Token} (h : scan (p ++ r) = some (k, p.length)) (ht : mkToken k p = some t) :
    tokenizeAndFilter (p ++ r) = (tokenizeAndFilter r).map (filt [t] ++ ·) := by
  have := tokenize_some (t := t) h (by rw [List.take_left' rfl]; exact ht)
  rw [taf_eq, this, List.drop_left' rfl, taf_eq, res_map_map, res_map_map]
  congr 1
  funext x
  rw [filt_cons]

theorem tokenize_piece {k : Kind} {p r : Str} {t : Token} (h : scan (p ++ r) = some (k, p.length)) (ht : mkToken k p = some t) :
    tokenize (p ++ r) = (tokenize r).map (t :: ·) := by
  have := tokenize_some (t := t) h (by rw [List.take_left' rfl]; exact ht)
  rw [this, List.drop_left' rfl]

theorem taf_dropWs (s : Str) : tokenizeAndFilter s = tokenizeAndFilter (s.dropWhile isWs) := by
  by_cases hne : s.takeWhile isWs = []
  · have : s.dropWhile isWs = s := by
      have := List.takeWhile_append_dropWhile (p := isWs) (l := s)
      rw [hne] at this; exact this
    rw [this]
  · have hs : scan (s.takeWhile isWs ++ s.dropWhile isWs) = some (.ws, (s.takeWhile isWs).length) := by
      rw [scan_split]
      refine ⟨(match_shape _ _).mpr ⟨hne, ?_⟩, ?_, by intro h; cases h⟩
      · exact List.all_eq_true.mp List.all_takeWhile
      · intro c hc
        cases hd : s.dropWhile isWs with
        | nil => rw [hd] at hc; cases hc
        | cons d t =>
          rw [hd] at hc; cases hc
          have := List.head_dropWhile_not isWs (l := s) (by rw [hd]; simp)
          simpa [hd] using this
    have := taf_piece hs (t := .ws (s.takeWhile isWs)) rfl
    rw [List.takeWhile_append_dropWhile] at this
    rw [this]
    exact res_map_id _

theorem taf_ws {w : Str} (hw : ∀ c ∈ w, isWs c = true) (s : Str) : tokenizeAndFilter (w ++ s) = tokenizeAndFilter s := by
  rw [taf_dropWs (w ++ s), List.dropWhile_append_of_pos hw, ← taf_dropWs]

/-- A text that is a whole number of tokens can be read on its own, whatever follows. -/
theorem taf_join (b : Str) : ∀ (n : Nat) (a : Str), a.length ≤ n → ∀ ta, tokenize a = .ok ta →
    (∀ c, ta.getLast? = some (.comment c) → c.getLast? = some '\n') → ¬ (WordEnd a ∧ WordStart b) →
    tokenizeAndFilter (a ++ b) = (tokenizeAndFilter b).map (filt ta ++ ·) := by
  intro n
  induction n with
  | zero =>
    intro a ha ta ht _ _
    cases a with
    | nil => cases ht; exact (res_map_id _).symm
    | cons => simp at ha
  | succ n ih =>
    intro a ha ta ht hc hw
    rcases tokenize_cases a with ⟨rfl, _⟩ | ⟨_, _, he⟩ | ⟨k, m, t, hb, h1, h2, h3, h4⟩
    · cases ht; exact (res_map_id _).symm
    · rw [he] at ht; cases ht
    · have hb0 := hb.1
      have hb1 := hb.2.1
      obtain ⟨p, a', rfl, rfl⟩ : ∃ p a', a = p ++ a' ∧ m = p.length :=
        ⟨a.take m, a.drop m, (List.take_append_drop m a).symm, by rw [List.length_take]; omega⟩
      rw [List.take_left' rfl] at h1 h2 h3
      rw [List.drop_left' rfl] at h4
      obtain ⟨hm, hst, hel⟩ := scan_split.mp (scan_iff.mpr (best_iff.mp hb))
      rw [ht] at h4
      cases hta : tokenize a' with
      | err e => rw [hta] at h4; cases h4
      | panic => rw [hta] at h4; cases h4
      | ok ta' =>
        rw [hta] at h4
        cases h4
        by_cases ha' : a' = []
        · subst ha'
          cases hta
          by_cases hk : k = .ws
          · subst hk
            cases h1
            rw [List.append_nil, taf_ws (((match_shape .ws p).mp hm).2)]
            exact (res_map_id _).symm
          · rw [List.append_nil]
            refine taf_piece (k := k) (scan_split.mpr ⟨hm, ?_, hel⟩) h1
            have hme := (match_shape k p).mp hm
            have hend : ∀ (hall : ∀ c ∈ p, isIdent c = true), p ≠ [] → ∀ c, b.head? = some c → isIdent c = false := by
              intro hall hne c hcb
              rw [← Bool.not_eq_true]
              intro hi
              refine hw ⟨⟨p.getLast hne, by rw [List.append_nil, List.getLast?_eq_some_getLast hne], isIdent_iff.mp (hall _ (List.getLast_mem hne))⟩, c, hcb, isIdent_iff.mp hi⟩
            cases k <;> simp only [Stable] <;> simp only at hme
            case ws => exact absurd rfl hk
            case element => exact hend hme.2 hme.1
            case openSquare => subst hme; exact hend (by decide) (by simp)
            case closeSquare => subst hme; exact hend (by decide) (by simp)
            case comment => cases h1; exact .inl (hc p rfl)
        · have hlen : a'.length ≤ n := by simp at ha; omega
          have hne : ta' ≠ [] := by
            rintro rfl
            have := tokenize_text hta
            exact ha' this.symm
          have := ih a' hlen ta' hta (by
            intro c hcl
            apply hc
            rw [List.getLast?_cons, hcl]; rfl) (by
            rintro ⟨⟨c, hl, hi⟩, hs⟩
            refine hw ⟨⟨c, ?_, hi⟩, hs⟩
            rw [List.getLast?_append, hl]; rfl)
          rw [List.append_assoc, taf_piece (k := k) (t := t) (scan_split.mpr ⟨hm, ?_, hel⟩) h1, this, res_map_map]
          · congr 1
            funext x
            rw [filt_cons t ta', List.append_assoc]
          · have hh : ∀ c, (a' ++ b).head? = some c → a'.head? = some c := by
              intro c hcb
              cases a' with
              | nil => exact absurd rfl ha'
              | cons x a' => exact hcb
            cases k <;> simp only [Stable] at hst ⊢
            case ws => intro c hcb; exact hst c (hh c hcb)
            case element => intro c hcb; exact hst c (hh c hcb)
            case openSquare => intro c hcb; exact hst c (hh c hcb)
            case closeSquare => intro c hcb; exact hst c (hh c hcb)
            case comment => exact hst.imp_right (fun h => absurd h ha')

end Lexer
end Verif
