import Verif.Proofs.Regex
import Verif.Spec.Lexer
/-!
# Proofs about the tokenizer: the longest-match automaton equals a hand-written scanner
-/
namespace Verif
namespace Lexer
open Spec Re

/-- `Best` in terms of the patterns and priorities of the code. -/
def BestRe (s : Str) (k : Kind) (n : Nat) : Prop :=
  0 < n ∧ n ≤ s.length ∧ k.re.Matches (s.take n) ∧
  (∀ k' m, m ≤ s.length → (Kind.re k').Matches (s.take m) → m ≤ n) ∧
  (∀ k', (Kind.re k').Matches (s.take n) → k' = k ∨ k'.prio < k.prio)

/-- `NoMatch` in terms of the patterns of the code. -/
def NoMatchRe (s : Str) : Prop := ∀ (k : Kind) m, 0 < m → m ≤ s.length → ¬ k.re.Matches (s.take m)

/-! ## String bodies -/

/-- One unit of a string body: a plain character or an escape. -/
def IsUnit (u : Str) : Prop :=
  (∃ c, u = [c] ∧ isPlain c = true) ∨ (∃ c, u = ['\\', c] ∧ isEscChar c = true) ∨
  (∃ a b c d, u = ['\\', 'u', a, b, c, d] ∧ isHex a = true ∧ isHex b = true ∧ isHex c = true ∧ isHex d = true)

/-- A sequence of units. -/
inductive Body : Str → Prop where
  | nil : Body []
  | cons {u t} : IsUnit u → Body t → Body (u ++ t)

theorem matches_body {s : Str} : strBodyRe.Matches s ↔ Body s := by
  have hu : ∀ u, Matches (alt (cls isPlain) (alt (cat (chr '\\') (cls isEscChar))
      (cat (chr '\\') (cat (chr 'u') (cat (cls isHex) (cat (cls isHex) (cat (cls isHex) (cls isHex)))))))) u ↔ IsUnit u := by
    intro u
    simp only [matches_alt, matches_cls, matches_cat, matches_chr, IsUnit]
    constructor
    · rintro (h | ⟨x, y, rfl, rfl, c, rfl, h⟩ |
        ⟨_, _, rfl, rfl, _, _, rfl, rfl, _, _, rfl, ⟨a, rfl, ha⟩, _, _, rfl, ⟨b, rfl, hb⟩, _, _, rfl, ⟨c, rfl, hc⟩, d, rfl, hd⟩)
      · exact .inl h
      · exact .inr (.inl ⟨c, rfl, h⟩)
      · exact .inr (.inr ⟨a, b, c, d, rfl, ha, hb, hc, hd⟩)
    · rintro (h | ⟨c, rfl, h⟩ | ⟨a, b, c, d, rfl, ha, hb, hc, hd⟩)
      · exact .inl h
      · exact .inr (.inl ⟨['\\'], [c], rfl, rfl, c, rfl, h⟩)
      · exact .inr (.inr ⟨['\\'], _, rfl, rfl, ['u'], _, rfl, rfl, [a], _, rfl, ⟨a, rfl, ha⟩, [b], _, rfl, ⟨b, rfl, hb⟩,
          [c], [d], rfl, ⟨c, rfl, hc⟩, d, rfl, hd⟩)
  constructor
  · intro h
    unfold strBodyRe at h
    generalize hr : star _ = r at h
    induction h with
    | starNil => exact .nil
    | @starCons a s t h1 h2 ih1 ih2 =>
      cases hr
      exact .cons ((hu _).mp h1) (ih2 rfl)
    | _ => cases hr
  · intro h
    induction h with
    | nil => exact .starNil
    | cons h1 _ ih => exact .starCons ((hu _).mpr h1) ih

theorem Body.append {s t : Str} (h : Body s) (h' : Body t) : Body (s ++ t) := by
  induction h with
  | nil => exact h'
  | cons hu _ ih => rw [List.append_assoc]; exact .cons hu ih

theorem Body.unit {u : Str} (h : IsUnit u) : Body u := by simpa using Body.cons h .nil

/-- Length of the body and the closing quote. -/
def scanBody : Str → Option Nat
  | [] => none
  | '"' :: _ => some 1
  | '\\' :: 'u' :: a :: b :: c :: d :: rest =>
    if isHex a && isHex b && isHex c && isHex d then (scanBody rest).map (· + 6) else none
  | '\\' :: e :: rest => if isEscChar e then (scanBody rest).map (· + 2) else none
  | c :: rest => if isPlain c then (scanBody rest).map (· + 1) else none

theorem plain_quote : isPlain '"' = false := by decide
theorem plain_backslash : isPlain '\\' = false := by decide
theorem esc_u : isEscChar 'u' = false := by decide

theorem scanBody_unit {u : Str} (hu : IsUnit u) (t : Str) : scanBody (u ++ t) = (scanBody t).map (· + u.length) := by
  rcases hu with ⟨c, rfl, h⟩ | ⟨c, rfl, h⟩ | ⟨a, b, c, d, rfl, ha, hb, hc, hd⟩
  · have h1 : c ≠ '"' := by rintro rfl; rw [plain_quote] at h; cases h
    have h2 : c ≠ '\\' := by rintro rfl; rw [plain_backslash] at h; cases h
    simp only [List.cons_append, List.nil_append]
    rw [scanBody.eq_def]
    split
    · rename_i e; cases e
    · rename_i e; cases e; exact absurd rfl h1
    · rename_i e; cases e; exact absurd rfl h2
    · rename_i e; cases e; exact absurd rfl h2
    · rename_i e; cases e; simp [h]
  · have h1 : c ≠ 'u' := by rintro rfl; rw [esc_u] at h; cases h
    simp only [List.cons_append, List.nil_append]
    rw [scanBody.eq_def]
    split
    · rename_i e; cases e
    · rename_i e; cases e
    · rename_i e; cases e; exact absurd rfl h1
    · rename_i e; cases e; simp [h]
    · rename_i hx e; cases e; exact (hx c t rfl rfl).elim
  · simp only [List.cons_append, List.nil_append, scanBody, ha, hb, hc, hd]
    simp

theorem scanBody_complete {s : Str} (h : Body s) (t : Str) : scanBody (s ++ '"' :: t) = some (s.length + 1) := by
  induction h with
  | nil => simp [scanBody]
  | cons hu _ ih =>
    rw [List.append_assoc, scanBody_unit hu, ih]
    simp; omega

theorem scanBody_sound (k : Nat) : ∀ {s : Str} {n : Nat}, s.length = k → scanBody s = some n →
    ∃ b t, s = b ++ '"' :: t ∧ Body b ∧ n = b.length + 1 := by
  induction k using Nat.strongRecOn with
  | ind k ih =>
    intro s n hk h
    rw [scanBody.eq_def] at h
    split at h
    · cases h
    · rename_i t; cases h; exact ⟨[], t, rfl, .nil, rfl⟩
    · rename_i a b c d rest
      split at h
      · rename_i hh
        simp only [Bool.and_eq_true] at hh
        simp only [Option.map_eq_some_iff] at h
        obtain ⟨m, hm, rfl⟩ := h
        obtain ⟨bo, t, rfl, hb, rfl⟩ := ih rest.length (by simp at hk; omega) rfl hm
        refine ⟨'\\' :: 'u' :: a :: b :: c :: d :: bo, t, rfl, ?_, by simp⟩
        exact Body.cons (u := ['\\', 'u', a, b, c, d]) (.inr (.inr ⟨a, b, c, d, rfl, hh.1.1.1, hh.1.1.2, hh.1.2, hh.2⟩)) hb
      · cases h
    · rename_i e rest _
      split at h
      · rename_i he
        simp only [Option.map_eq_some_iff] at h
        obtain ⟨m, hm, rfl⟩ := h
        obtain ⟨bo, t, rfl, hb, rfl⟩ := ih rest.length (by simp at hk; omega) rfl hm
        exact ⟨'\\' :: e :: bo, t, rfl, Body.cons (u := ['\\', e]) (.inr (.inl ⟨e, rfl, he⟩)) hb, by simp⟩
      · cases h
    · rename_i c rest _ _ _
      split at h
      · rename_i he
        simp only [Option.map_eq_some_iff] at h
        obtain ⟨m, hm, rfl⟩ := h
        obtain ⟨bo, t, rfl, hb, rfl⟩ := ih rest.length (by simp at hk; omega) rfl hm
        exact ⟨c :: bo, t, rfl, Body.cons (u := [c]) (.inl ⟨c, rfl, he⟩) hb, by simp⟩
      · cases h

theorem scanBody_iff {s : Str} {n : Nat} : scanBody s = some n ↔ ∃ b t, s = b ++ '"' :: t ∧ Body b ∧ n = b.length + 1 := by
  constructor
  · exact scanBody_sound s.length rfl
  · rintro ⟨b, t, rfl, hb, rfl⟩; exact scanBody_complete hb t

/-! ## Matches of each pattern, by its first character -/

/-- What a match of each pattern looks like. -/
theorem match_shape (k : Kind) (w : Str) : k.re.Matches w ↔ match k with
    | .ws => w ≠ [] ∧ ∀ c ∈ w, isWs c = true
    | .string => ∃ b, w = '"' :: (b ++ ['"']) ∧ Body b
    | .openParen => w = ['(']
    | .closeParen => w = [')']
    | .openBrace => w = ['{']
    | .closeBrace => w = ['}']
    | .openSquare => w = ['[']
    | .closeSquare => w = [']']
    | .element => w ≠ [] ∧ ∀ c ∈ w, isIdent c = true
    | .pipe => w = ['|']
    | .comma => w = [',']
    | .comment => ∃ b, '\n' ∉ b ∧ (w = '-' :: '-' :: b ∨ w = '-' :: '-' :: (b ++ ['\n'])) := by
  cases k <;> simp only [Kind.re]
  case ws => exact matches_plus_cls
  case element => exact matches_plus_cls
  case string =>
    simp only [matches_cat, matches_chr, matches_body]
    constructor
    · rintro ⟨_, _, rfl, rfl, b, _, rfl, hb, rfl⟩; exact ⟨b, rfl, hb⟩
    · rintro ⟨b, rfl, hb⟩; exact ⟨_, _, rfl, rfl, b, _, rfl, hb, rfl⟩
  case comment =>
    simp only [matches_cat, matches_chr, matches_star_cls, matches_opt]
    constructor
    · rintro ⟨_, _, rfl, rfl, _, _, rfl, rfl, b, _, rfl, hb, rfl | rfl⟩
      · exact ⟨b, fun h => by simpa using hb _ h, .inr rfl⟩
      · exact ⟨b, fun h => by simpa using hb _ h, .inl (by simp)⟩
    · rintro ⟨b, hb, rfl | rfl⟩
      · exact ⟨['-'], _, rfl, rfl, ['-'], _, rfl, rfl, b, [], by simp, fun c hc => by simp only [bne_iff_ne]; rintro rfl; exact hb hc, .inr rfl⟩
      · exact ⟨['-'], _, rfl, rfl, ['-'], _, rfl, rfl, b, ['\n'], rfl, fun c hc => by simp only [bne_iff_ne]; rintro rfl; exact hb hc, .inl rfl⟩
  all_goals exact matches_chr

theorem ident_not_ws {c : Char} (h : isIdent c = true) : isWs c = false := by
  cases hw : isWs c with
  | false => rfl
  | true =>
    simp only [isWs, Bool.or_eq_true, beq_iff_eq] at hw
    rcases hw with ((rfl | rfl) | rfl) | rfl <;> (revert h; decide)

/-- The hand-written scanner: kind and length of the next piece. -/
def scan : Str → Option (Kind × Nat)
  | [] => none
  | c :: cs =>
    if isWs c then some (.ws, (cs.takeWhile isWs).length + 1)
    else if c = '"' then (scanBody cs).map (fun n => (.string, n + 1))
    else if c = '(' then some (.openParen, 1)
    else if c = ')' then some (.closeParen, 1)
    else if c = '{' then some (.openBrace, 1)
    else if c = '}' then some (.closeBrace, 1)
    else if c = '|' then some (.pipe, 1)
    else if c = ',' then some (.comma, 1)
    else if isIdent c then
      if c = '-' ∧ cs.head? = some '-' then
        let body := (cs.drop 1).takeWhile (· != '\n')
        some (.comment, body.length + 2 + (if ((cs.drop 1).drop body.length).head? = some '\n' then 1 else 0))
      else if c = '[' ∧ (cs.takeWhile isIdent).length = 0 then some (.openSquare, 1)
      else if c = ']' ∧ (cs.takeWhile isIdent).length = 0 then some (.closeSquare, 1)
      else some (.element, (cs.takeWhile isIdent).length + 1)
    else none

theorem prefix_takeWhile {α} {p : α → Bool} {w s : List α} (h : w <+: s) (hp : ∀ c ∈ w, p c = true) :
    w.length ≤ (s.takeWhile p).length := by
  obtain ⟨t, rfl⟩ := h
  rw [List.takeWhile_append_of_pos hp]
  simp

theorem take_takeWhile {α} (p : α → Bool) (s : List α) : s.take (s.takeWhile p).length = s.takeWhile p := by
  have := List.takeWhile_prefix p (l := s)
  exact (List.prefix_iff_eq_take.mp this).symm

/-- The characters a match of each pattern can begin with. -/
def firstOk : Kind → Char → Bool
  | .ws, c => isWs c
  | .string, c => c == '"'
  | .openParen, c => c == '('
  | .closeParen, c => c == ')'
  | .openBrace, c => c == '{'
  | .closeBrace, c => c == '}'
  | .openSquare, c => c == '['
  | .closeSquare, c => c == ']'
  | .element, c => isIdent c
  | .pipe, c => c == '|'
  | .comma, c => c == ','
  | .comment, c => c == '-'

theorem first_ok {k : Kind} {w : Str} (h : k.re.Matches w) : ∃ c t, w = c :: t ∧ firstOk k c = true := by
  rw [match_shape] at h
  cases k <;> simp only at h
  case ws => cases w with
    | nil => exact absurd rfl h.1
    | cons c t => exact ⟨c, t, rfl, h.2 c List.mem_cons_self⟩
  case element => cases w with
    | nil => exact absurd rfl h.1
    | cons c t => exact ⟨c, t, rfl, h.2 c List.mem_cons_self⟩
  case string => obtain ⟨b, rfl, _⟩ := h; exact ⟨_, _, rfl, rfl⟩
  case comment => obtain ⟨b, _, rfl | rfl⟩ := h <;> exact ⟨_, _, rfl, rfl⟩
  all_goals (subst h; exact ⟨_, _, rfl, rfl⟩)

/-- A match at the front of `c :: cs` is of a pattern that can begin with `c`. -/
theorem first_take {k : Kind} {c : Char} {cs : Str} {m : Nat} (h : k.re.Matches ((c :: cs).take m)) : firstOk k c = true := by
  obtain ⟨d, t, e, hd⟩ := first_ok h
  cases m with
  | zero => cases e
  | succ m => simp at e; rw [e.1]; exact hd

theorem single_best {k : Kind} {c : Char} {cs : Str} (hre : ∀ w, k.re.Matches w ↔ w = [c])
    (hk : ∀ k', firstOk k' c = true → k' = k) : BestRe (c :: cs) k 1 := by
  refine ⟨by omega, by simp, (hre _).mpr (by simp), ?_, ?_⟩
  · intro k' m hm h
    have := hk k' (first_take h); subst this
    have := congrArg List.length ((hre _).mp h)
    rw [List.length_take] at this; simp at this hm; omega
  · intro k' h
    exact .inl (hk k' (first_take h))

theorem run_match {p : Char → Bool} {c : Char} {cs : Str} :
    (c :: cs).take ((cs.takeWhile p).length + 1) = c :: cs.takeWhile p := by
  rw [List.take_succ_cons, take_takeWhile]

theorem run_longest {p : Char → Bool} {c : Char} {cs : Str} {m : Nat} (hm : m ≤ (c :: cs).length)
    (h : ∀ d ∈ (c :: cs).take m, p d = true) : m ≤ (cs.takeWhile p).length + 1 := by
  have := prefix_takeWhile (p := p) (List.take_prefix m (c :: cs)) h
  rw [List.length_take] at this
  rw [List.takeWhile_cons] at this
  split at this
  · simp at this hm; omega
  · simp at this hm
    omega

theorem comment_shape {cs : Str} {m : Nat} (hm : m ≤ cs.length + 2)
    (h : ∃ b, '\n' ∉ b ∧ ((('-' :: '-' :: cs).take m = '-' :: '-' :: b) ∨ ('-' :: '-' :: cs).take m = '-' :: '-' :: (b ++ ['\n']))) :
    m ≤ (cs.takeWhile (· != '\n')).length + 2 + (if (cs.drop (cs.takeWhile (· != '\n')).length).head? = some '\n' then 1 else 0) := by
  obtain ⟨b, hb, h | h⟩ := h
  all_goals
    match m, h with
    | 0, h => omega
    | 1, h => omega
    | m + 2, h => ?_
  · simp only [List.take_succ_cons, List.cons.injEq, true_and] at h
    have : (cs.take m).length ≤ (cs.takeWhile (· != '\n')).length :=
      prefix_takeWhile (List.take_prefix m cs) (fun c hc => by rw [h] at hc; simp only [bne_iff_ne]; rintro rfl; exact hb hc)
    rw [List.length_take] at this
    split <;> omega
  · simp only [List.take_succ_cons, List.cons.injEq, true_and] at h
    have hpre : b ++ ['\n'] <+: cs := by rw [← h]; exact List.take_prefix m cs
    obtain ⟨t, rfl⟩ := hpre
    have htw : ((b ++ ['\n'] ++ t).takeWhile (· != '\n')) = b := by
      rw [List.append_assoc, List.takeWhile_append_of_pos (fun c hc => by simp only [bne_iff_ne]; rintro rfl; exact hb hc)]
      simp
    rw [htw]
    have hlen := congrArg List.length h
    rw [List.length_take] at hlen
    simp at hlen hm
    simp
    omega

theorem comment_match (cs : Str) :
    ∃ b, '\n' ∉ b ∧ ((('-' :: '-' :: cs).take ((cs.takeWhile (· != '\n')).length + 2 +
        (if (cs.drop (cs.takeWhile (· != '\n')).length).head? = some '\n' then 1 else 0)) = '-' :: '-' :: b) ∨
      ('-' :: '-' :: cs).take ((cs.takeWhile (· != '\n')).length + 2 +
        (if (cs.drop (cs.takeWhile (· != '\n')).length).head? = some '\n' then 1 else 0)) = '-' :: '-' :: (b ++ ['\n'])) := by
  refine ⟨cs.takeWhile (· != '\n'), ?_, ?_⟩
  · intro h
    have := List.all_takeWhile (p := (· != '\n')) (l := cs)
    rw [List.all_eq_true] at this
    simpa using this _ h
  · split
    · rename_i h
      right
      have hn : (cs.takeWhile (· != '\n')).length + 2 + 1 = ((cs.takeWhile (· != '\n')).length + 1) + 2 := by omega
      rw [hn, List.take_succ_cons, List.take_succ_cons, List.take_add_one, take_takeWhile]
      rw [List.head?_drop] at h
      rw [h]; rfl
    · left
      rw [Nat.add_zero, List.take_succ_cons, List.take_succ_cons, take_takeWhile]

theorem element_best {c : Char} {cs : Str} (hid : isIdent c = true) (hnc : ¬ (c = '-' ∧ cs.head? = some '-'))
    (hk : ∀ k', firstOk k' c = true → k' = .element ∨ (k' = .comment ∧ c = '-') ∨ (k' = .openSquare ∧ c = '[') ∨
      (k' = .closeSquare ∧ c = ']'))
    (hos : ¬ ((c = '[' ∨ c = ']') ∧ (cs.takeWhile isIdent).length = 0)) :
    BestRe (c :: cs) .element ((cs.takeWhile isIdent).length + 1) := by
  have hcom : ∀ m, ¬ (Kind.re .comment).Matches ((c :: cs).take m) := by
    intro m h
    rw [match_shape] at h
    simp only at h
    apply hnc
    obtain ⟨b, _, h | h⟩ := h
    all_goals
      match m, h with
      | 0, h => cases h
      | 1, h => simp at h
      | m + 2, h => ?_
    all_goals
      cases cs with
      | nil => simp at h
      | cons d cs => simp at h; exact ⟨h.1, by simp [h.2.1]⟩
  refine ⟨by omega, ?_, ?_, ?_, ?_⟩
  · have := (List.takeWhile_prefix isIdent (l := cs)).length_le
    simp; exact this
  · rw [match_shape, run_match]
    refine ⟨by simp, ?_⟩
    intro d hd
    rw [List.mem_cons] at hd
    rcases hd with rfl | hd
    · exact hid
    · exact (List.all_eq_true.mp (List.all_takeWhile (p := isIdent) (l := cs))) d hd
  · intro k' m hm h
    rcases hk k' (first_take h) with rfl | ⟨rfl, _⟩ | ⟨rfl, _⟩ | ⟨rfl, _⟩
    · rw [match_shape] at h
      exact run_longest hm h.2
    · exact absurd h (hcom m)
    · rw [match_shape] at h
      have := congrArg List.length h
      rw [List.length_take] at this; simp at this hm; omega
    · rw [match_shape] at h
      have := congrArg List.length h
      rw [List.length_take] at this; simp at this hm; omega
  · intro k' h
    rcases hk k' (first_take h) with rfl | ⟨rfl, _⟩ | ⟨rfl, hc⟩ | ⟨rfl, hc⟩
    · exact .inl rfl
    · exact absurd h (hcom _)
    · rw [match_shape, run_match] at h
      simp at h
      exact absurd ⟨.inl hc, by rw [h.2]; rfl⟩ hos
    · rw [match_shape, run_match] at h
      simp at h
      exact absurd ⟨.inr hc, by rw [h.2]; rfl⟩ hos

theorem square_best {k : Kind} {c : Char} {cs : Str} (hre : ∀ w, k.re.Matches w ↔ w = [c]) (hp : k.prio = 2)
    (hk : ∀ k', firstOk k' c = true → k' = .element ∨ k' = k) (h0 : (cs.takeWhile isIdent).length = 0) :
    BestRe (c :: cs) k 1 := by
  refine ⟨by omega, by simp, (hre _).mpr (by simp), ?_, ?_⟩
  · intro k' m hm h
    rcases hk k' (first_take h) with rfl | rfl
    · rw [match_shape] at h
      have := run_longest hm h.2
      omega
    · have := congrArg List.length ((hre _).mp h)
      rw [List.length_take] at this; simp at this hm; omega
  · intro k' h
    rcases hk k' (first_take h) with rfl | rfl
    · right; rw [hp]; decide
    · exact .inl rfl

theorem ite_inv {α} {p : Prop} [Decidable p] {a b r : α} (h : (if p then a else b) = r) : (p ∧ a = r) ∨ (¬ p ∧ b = r) := by
  by_cases hp : p
  · rw [if_pos hp] at h; exact .inl ⟨hp, h⟩
  · rw [if_neg hp] at h; exact .inr ⟨hp, h⟩

set_option hygiene false in
/-- Case split on the condition of the `if` in `hsc`. -/
local macro "isplit" : tactic => `(tactic| (replace hsc := ite_inv hsc; rcases hsc with ⟨_, hsc⟩ | ⟨_, hsc⟩))

theorem scan_best (s : Str) : match scan s with
    | some (k, n) => BestRe s k n
    | none => NoMatchRe s := by
  cases s with
  | nil =>
    intro k m h1 h2; simp at h2; omega
  | cons c cs =>
    have hsc : scan (c :: cs) = scan (c :: cs) := rfl
    generalize hg : scan (c :: cs) = r at hsc ⊢
    clear hsc
    have hsc := hg
    clear hg
    rw [scan] at hsc
    rcases r with _ | ⟨k, n⟩
    case some =>
      isplit
      · rename_i hws
        cases hsc
        have hk : ∀ k', firstOk k' c = true → k' = .ws := by
          have hws' := hws
          simp only [isWs, Bool.or_eq_true, beq_iff_eq] at hws'
          intro k' h
          rcases hws' with ((rfl | rfl) | rfl) | rfl <;> revert h <;> cases k' <;> decide
        refine ⟨by omega, ?_, ?_, ?_, ?_⟩
        · have := (List.takeWhile_prefix isWs (l := cs)).length_le
          simp; exact this
        · rw [match_shape, run_match]
          refine ⟨by simp, ?_⟩
          intro d hd
          rw [List.mem_cons] at hd
          rcases hd with rfl | hd
          · exact hws
          · exact (List.all_eq_true.mp (List.all_takeWhile (p := isWs) (l := cs))) d hd
        · intro k' m hm h
          have := hk k' (first_take h); subst this
          rw [match_shape] at h
          exact run_longest hm h.2
        · intro k' h; exact .inl (hk k' (first_take h))
      isplit
      · rename_i hc; subst hc
        rw [Option.map_eq_some_iff] at hsc
        obtain ⟨m, hm, he⟩ := hsc
        cases he
        have hk : ∀ k', firstOk k' '"' = true → k' = .string := by intro k'; cases k' <;> decide
        obtain ⟨b, t, rfl, hb, rfl⟩ := scanBody_iff.mp hm
        have hw : ('"' :: (b ++ '"' :: t)).take (b.length + 1 + 1) = '"' :: (b ++ ['"']) := by
          rw [List.take_succ_cons, show b ++ '"' :: t = (b ++ ['"']) ++ t by simp,
            List.take_left' (by simp)]
        refine ⟨by omega, by simp, ?_, ?_, ?_⟩
        · rw [match_shape, hw]; exact ⟨b, rfl, hb⟩
        · intro k' m hm' h
          have := hk k' (first_take h); subst this
          rw [match_shape] at h
          obtain ⟨b', hb', hbody⟩ := h
          have hpre : '"' :: (b' ++ ['"']) <+: '"' :: (b ++ '"' :: t) := by rw [← hb']; exact List.take_prefix _ _
          obtain ⟨t', ht'⟩ := hpre
          simp only [List.cons_append, List.cons.injEq, true_and] at ht'
          have h1 := scanBody_complete hbody t'
          rw [show b' ++ '"' :: t' = b' ++ ['"'] ++ t' by simp, ht', hm] at h1
          have hl := congrArg List.length hb'
          rw [List.length_take] at hl
          simp at hl h1 hm'
          omega
        · intro k' h; exact .inl (hk k' (first_take h))
      isplit
      · rename_i hc; subst hc; cases hsc
        exact single_best (fun w => match_shape _ w) (by intro k'; cases k' <;> decide)
      isplit
      · rename_i hc; subst hc; cases hsc
        exact single_best (fun w => match_shape _ w) (by intro k'; cases k' <;> decide)
      isplit
      · rename_i hc; subst hc; cases hsc
        exact single_best (fun w => match_shape _ w) (by intro k'; cases k' <;> decide)
      isplit
      · rename_i hc; subst hc; cases hsc
        exact single_best (fun w => match_shape _ w) (by intro k'; cases k' <;> decide)
      isplit
      · rename_i hc; subst hc; cases hsc
        exact single_best (fun w => match_shape _ w) (by intro k'; cases k' <;> decide)
      isplit
      · rename_i hc; subst hc; cases hsc
        exact single_best (fun w => match_shape _ w) (by intro k'; cases k' <;> decide)
      isplit
      · rename_i hws hq h1 h2 h3 h4 h5 h6 hid
        isplit
        · rename_i hcc
          obtain ⟨rfl, hh⟩ := hcc
          cases hsc
          cases cs with
          | nil => cases hh
          | cons d cs =>
            simp at hh; subst hh
            simp only [List.drop_one, List.tail_cons]
            have hk : ∀ k', firstOk k' '-' = true → k' = .element ∨ k' = .comment := by intro k'; cases k' <;> decide
            have hel : ∀ m, m ≤ cs.length + 2 → (Kind.re .element).Matches (('-' :: '-' :: cs).take m) →
                m ≤ (cs.takeWhile (· != '\n')).length + 2 +
                  (if (cs.drop (cs.takeWhile (· != '\n')).length).head? = some '\n' then 1 else 0) := by
              intro m hm h
              match m, hm, h with
              | 0, _, _ => omega
              | 1, _, _ => omega
              | m + 2, hm, h =>
                rw [match_shape] at h
                have : (cs.take m).length ≤ (cs.takeWhile (· != '\n')).length :=
                  prefix_takeWhile (List.take_prefix m cs) (fun c hc => by
                    have := h.2 c (by simp only [List.take_succ_cons, List.mem_cons]; exact .inr (.inr hc))
                    simp only [bne_iff_ne]; rintro rfl; revert this; decide)
                rw [List.length_take] at this
                omega
            refine ⟨by omega, ?_, ?_, ?_, ?_⟩
            · have hp := (List.takeWhile_prefix (· != '\n') (l := cs)).length_le
              split
              · rename_i hh
                have : (cs.takeWhile (· != '\n')).length ≠ cs.length := by
                  intro e; rw [e, List.drop_length] at hh; cases hh
                simp; omega
              · simp; omega
            · rw [match_shape]; exact comment_match cs
            · intro k' m hm h
              rcases hk k' (first_take h) with rfl | rfl
              · exact hel m (by simpa using hm) h
              · rw [match_shape] at h
                exact comment_shape (by simpa using hm) h
            · intro k' h
              rcases hk k' (first_take h) with rfl | rfl
              · right; decide
              · exact .inl rfl
        · rename_i hnc
          isplit
          · rename_i hcc
            obtain ⟨rfl, hh⟩ := hcc
            cases hsc
            exact square_best (fun w => match_shape _ w) rfl (by intro k'; cases k' <;> decide) hh
          isplit
          · rename_i hcc
            obtain ⟨rfl, hh⟩ := hcc
            cases hsc
            exact square_best (fun w => match_shape _ w) rfl (by intro k'; cases k' <;> decide) hh
          · rename_i ho hcl
            cases hsc
            refine element_best hid hnc ?_ ?_
            · intro k' h
              cases k' <;> simp only [firstOk, beq_iff_eq] at h
              case ws => exact absurd h hws
              case string => exact absurd h hq
              case openParen => exact absurd h h1
              case closeParen => exact absurd h h2
              case openBrace => exact absurd h h3
              case closeBrace => exact absurd h h4
              case openSquare => exact .inr (.inr (.inl ⟨rfl, h⟩))
              case closeSquare => exact .inr (.inr (.inr ⟨rfl, h⟩))
              case element => exact .inl rfl
              case pipe => exact absurd h h5
              case comma => exact absurd h h6
              case comment => exact .inr (.inl ⟨rfl, h⟩)
            · rintro ⟨h | h, h0⟩
              · exact ho ⟨h, h0⟩
              · exact hcl ⟨h, h0⟩
      · cases hsc
    case none =>
      have hno : ∀ k', firstOk k' c = false ∨ (k' = .string ∧ c = '"' ∧ scanBody cs = none) := by
        intro k'
        isplit
        · cases hsc
        rename_i hws
        isplit
        · rename_i hc; subst hc
          by_cases e : k' = .string
          · right; exact ⟨e, rfl, by simpa using hsc⟩
          · left; revert e; cases k' <;> decide
        rename_i hq
        isplit
        · cases hsc
        rename_i h1
        isplit
        · cases hsc
        rename_i h2
        isplit
        · cases hsc
        rename_i h3
        isplit
        · cases hsc
        rename_i h4
        isplit
        · cases hsc
        rename_i h5
        isplit
        · cases hsc
        rename_i h6
        isplit
        · isplit
          · cases hsc
          · isplit
            · cases hsc
            · isplit
              · cases hsc
              · cases hsc
        rename_i hid
        left
        simp only [Bool.not_eq_true] at hid hws
        cases k' <;> simp only [firstOk, beq_eq_false_iff_ne, ne_eq, hws, hid, hq, h1, h2, h3, h4, h5, h6, not_false_eq_true]
        all_goals (rintro rfl; revert hid; decide)
      intro k' m h0 hm h
      rcases hno k' with hf | ⟨rfl, rfl, hb⟩
      · have := first_take h; rw [hf] at this; cases this
      · rw [match_shape] at h
        obtain ⟨b, hb', hbody⟩ := h
        have hpre : '"' :: (b ++ ['"']) <+: '"' :: cs := by rw [← hb']; exact List.take_prefix _ _
        obtain ⟨t, ht⟩ := hpre
        simp only [List.cons_append, List.cons.injEq, true_and] at ht
        have h1 := scanBody_complete hbody t
        rw [show b ++ '"' :: t = b ++ ['"'] ++ t by simp, ht, hb] at h1
        cases h1

/-! ## The forms of the specification are the patterns of the code -/

theorem char_le {a b : Char} : a ≤ b ↔ a.toNat ≤ b.toNat := by
  rw [Char.le_def, UInt32.le_iff_toNat_le]; rfl

theorem isWs_iff {c : Char} : isWs c = true ↔ WsChar c := by
  simp only [isWs, WsChar, Bool.or_eq_true, beq_iff_eq, or_assoc]

theorem isIdent_iff {c : Char} : isIdent c = true ↔ WordChar c := by
  simp only [isIdent, WordChar, inRange, wordRanges, Bool.or_eq_true, Bool.and_eq_true, decide_eq_true_eq, char_le, List.mem_cons,
    List.contains_iff_mem, or_assoc, exists_eq_or_imp, exists_eq_left, List.not_mem_nil, or_false]
  rfl

theorem isHex_iff {c : Char} : isHex c = true ↔ HexChar c := by
  simp only [isHex, HexChar, Bool.or_eq_true, Bool.and_eq_true, decide_eq_true_eq, char_le, or_assoc]
  rfl

theorem isPlain_iff {c : Char} : isPlain c = true ↔ 0x20 ≤ c.toNat ∧ c ≠ '"' ∧ c ≠ '\\' := by
  simp [isPlain, and_assoc, Nat.lt_iff_add_one_le]

theorem isEsc_iff {c : Char} : isEscChar c = true ↔ c ∈ ['"', '\\', '/', 'b', 'f', 'n', 'r', 't'] := by
  simp [isEscChar, or_assoc]

theorem body_iff {s : Str} : Body s ↔ StringBody s := by
  constructor
  · intro h
    induction h with
    | nil => exact .nil
    | cons hu _ ih =>
      rcases hu with ⟨c, rfl, h⟩ | ⟨c, rfl, h⟩ | ⟨a, b, c, d, rfl, h1, h2, h3, h4⟩
      · obtain ⟨h1, h2, h3⟩ := isPlain_iff.mp h
        exact .plain h1 h2 h3 ih
      · exact .escape (isEsc_iff.mp h) ih
      · exact .unicode (isHex_iff.mp h1) (isHex_iff.mp h2) (isHex_iff.mp h3) (isHex_iff.mp h4) ih
  · intro h
    induction h with
    | nil => exact .nil
    | plain h1 h2 h3 _ ih => exact Body.cons (.inl ⟨_, rfl, isPlain_iff.mpr ⟨h1, h2, h3⟩⟩) ih
    | escape h _ ih => exact Body.cons (.inr (.inl ⟨_, rfl, isEsc_iff.mpr h⟩)) ih
    | unicode h1 h2 h3 h4 _ ih =>
      exact Body.cons (.inr (.inr ⟨_, _, _, _, rfl, isHex_iff.mpr h1, isHex_iff.mpr h2, isHex_iff.mpr h3, isHex_iff.mpr h4⟩)) ih

theorem fits_iff {k : Kind} {w : Str} : Fits k w ↔ k.re.Matches w := by
  rw [match_shape]
  cases k <;> simp only [Fits, isWs_iff, isIdent_iff, body_iff]

theorem beats_prio {k k' : Kind} (h : Beats k k') : k'.prio < k.prio := by
  obtain ⟨rfl, rfl | rfl | rfl⟩ := h <;> decide

theorem prio_beats {k k' : Kind} {w : Str} (h : k.re.Matches w) (h' : (Kind.re k').Matches w) (hp : k'.prio < k.prio) : Beats k k' := by
  obtain ⟨c, t, rfl, h1⟩ := first_ok h
  obtain ⟨c', t', e, h2⟩ := first_ok h'
  cases e
  clear h h'
  cases k' <;> cases k <;>
    first
    | (exfalso; revert hp; decide)
    | exact ⟨rfl, .inl rfl⟩
    | exact ⟨rfl, .inr (.inl rfl)⟩
    | exact ⟨rfl, .inr (.inr rfl)⟩
    | (exfalso; simp only [firstOk, beq_iff_eq] at h1; subst h1; revert h2; decide)

theorem best_iff {s : Str} {k : Kind} {n : Nat} : Best s k n ↔ BestRe s k n := by
  simp only [Best, BestRe, fits_iff]
  constructor
  · rintro ⟨h0, h1, h2, h3, h4⟩
    exact ⟨h0, h1, h2, h3, fun k' h => (h4 k' h).imp_right beats_prio⟩
  · rintro ⟨h0, h1, h2, h3, h4⟩
    exact ⟨h0, h1, h2, h3, fun k' h => (h4 k' h).imp_right (prio_beats h2 h)⟩

theorem noMatch_iff {s : Str} : NoMatch s ↔ NoMatchRe s := by
  simp only [NoMatch, NoMatchRe, fits_iff]

theorem best_unique {s : Str} {k k' : Kind} {n n' : Nat} (h : BestRe s k n) (h' : BestRe s k' n') : k = k' ∧ n = n' := by
  obtain ⟨_, hl, hm, hx, ht⟩ := h
  obtain ⟨_, hl', hm', hx', ht'⟩ := h'
  have hn : n = n' := Nat.le_antisymm (hx' k n hl hm) (hx k' n' hl' hm')
  subst hn
  refine ⟨?_, rfl⟩
  rcases ht k' hm' with h | h
  · exact h.symm
  · rcases ht' k hm with h' | h'
    · exact h'
    · omega

theorem best_noMatch {s : Str} {k : Kind} {n : Nat} (h : BestRe s k n) (h' : NoMatchRe s) : False :=
  h' k n h.1 h.2.1 h.2.2.1

theorem scan_iff {s : Str} {k : Kind} {n : Nat} : scan s = some (k, n) ↔ BestRe s k n := by
  have := scan_best s
  constructor
  · intro h; rw [h] at this; exact this
  · intro h
    split at this
    · rename_i k' n' e
      obtain ⟨rfl, rfl⟩ := best_unique h this
      exact e
    · exact (best_noMatch h this).elim

theorem scan_none {s : Str} : scan s = none ↔ NoMatchRe s := by
  have := scan_best s
  constructor
  · intro h; rw [h] at this; exact this
  · intro h
    split at this
    · exact (best_noMatch this h).elim
    · rename_i e; exact e

/-- What `lexStep` has found after the rules `ks`. -/
def FoldInv (s : Str) (ks : List Kind) : Option (Kind × Nat) → Prop
  | none => ∀ k ∈ ks, k.re.longest s = none ∨ k.re.longest s = some 0
  | some (k, n) => 0 < n ∧ k.re.longest s = some n ∧
      ∀ k' ∈ ks, ∀ n', Re.longest (Kind.re k') s = some n' → n' ≤ n ∧ (n' = n → k' = k ∨ k'.prio ≤ k.prio)

theorem better_inv {s : Str} {ks : List Kind} {r : Option (Kind × Nat)} (h : FoldInv s ks r) (k : Kind) :
    FoldInv s (ks ++ [k]) (better s r k) := by
  rw [better]
  split
  · rename_i e
    cases r with
    | none =>
      intro k' hk'
      rw [List.mem_append, List.mem_singleton] at hk'
      rcases hk' with hk' | rfl
      · exact h k' hk'
      · exact .inl e
    | some p =>
      refine ⟨h.1, h.2.1, ?_⟩
      intro k' hk' n' hn'
      rw [List.mem_append, List.mem_singleton] at hk'
      rcases hk' with hk' | rfl
      · exact h.2.2 k' hk' n' hn'
      · rw [e] at hn'; cases hn'
  · rename_i e
    cases r with
    | none =>
      intro k' hk'
      rw [List.mem_append, List.mem_singleton] at hk'
      rcases hk' with hk' | rfl
      · exact h k' hk'
      · exact .inr e
    | some p =>
      refine ⟨h.1, h.2.1, ?_⟩
      intro k' hk' n' hn'
      rw [List.mem_append, List.mem_singleton] at hk'
      rcases hk' with hk' | rfl
      · exact h.2.2 k' hk' n' hn'
      · rw [e] at hn'; cases hn'; exact ⟨by omega, fun h0 => by have := h.1; omega⟩
  · rename_i n e
    cases r with
    | none =>
      refine ⟨by omega, e, ?_⟩
      intro k' hk' n' hn'
      rw [List.mem_append, List.mem_singleton] at hk'
      rcases hk' with hk' | rfl
      · rcases h k' hk' with h | h
        · rw [h] at hn'; cases hn'
        · rw [h] at hn'; cases hn'; exact ⟨by omega, fun h0 => by omega⟩
      · rw [e] at hn'; cases hn'; exact ⟨by omega, fun _ => .inl rfl⟩
    | some p =>
      obtain ⟨k0, m⟩ := p
      obtain ⟨h0, h1, h2⟩ := h
      dsimp only
      split
      · rename_i hc
        simp only [Bool.or_eq_true, decide_eq_true_eq, Bool.and_eq_true, beq_iff_eq] at hc
        refine ⟨by omega, e, ?_⟩
        intro k' hk' n' hn'
        rw [List.mem_append, List.mem_singleton] at hk'
        rcases hk' with hk' | rfl
        · obtain ⟨h3, h4⟩ := h2 k' hk' n' hn'
          refine ⟨by omega, ?_⟩
          intro he
          rcases hc with hc | ⟨hc, hp⟩
          · omega
          · rcases h4 (by omega) with rfl | h4
            · right; omega
            · right; omega
        · rw [e] at hn'; cases hn'; exact ⟨by omega, fun _ => .inl rfl⟩
      · rename_i hc
        simp only [Bool.or_eq_true, decide_eq_true_eq, Bool.and_eq_true, beq_iff_eq] at hc
        refine ⟨h0, h1, ?_⟩
        intro k' hk' n' hn'
        rw [List.mem_append, List.mem_singleton] at hk'
        rcases hk' with hk' | rfl
        · exact h2 k' hk' n' hn'
        · rw [e] at hn'; cases hn'
          refine ⟨by omega, ?_⟩
          intro he
          right
          omega

theorem fold_inv {s : Str} (ks ks' : List Kind) {r : Option (Kind × Nat)} (h : FoldInv s ks r) :
    FoldInv s (ks ++ ks') (ks'.foldl (better s) r) := by
  induction ks' generalizing ks r with
  | nil => simpa using h
  | cons k ks' ih =>
    have := ih (ks ++ [k]) (better_inv h k)
    simpa using this

theorem mem_kinds (k : Kind) : k ∈ kinds := by cases k <;> decide

theorem lexStep_eq (s : Str) : lexStep s = scan s := by
  have hinv : FoldInv s kinds (lexStep s) := by
    have := fold_inv (s := s) [] kinds (r := none) (by intro k hk; cases hk)
    simpa [lexStep] using this
  cases hl : lexStep s with
  | none =>
    rw [hl] at hinv
    symm; rw [scan_none]
    intro k m h0 hm h
    have hsp := Re.longest_spec s k.re
    rcases hinv k (mem_kinds k) with e | e
    · rw [e] at hsp; exact hsp m hm h
    · rw [e] at hsp; have := hsp.2.2 m hm h; omega
  | some p =>
    obtain ⟨k, n⟩ := p
    rw [hl] at hinv
    obtain ⟨h0, h1, h2⟩ := hinv
    have hsp := Re.longest_spec s k.re
    rw [h1] at hsp
    have hb := scan_best s
    split at hb
    · rename_i k' n' e
      have hsp' := Re.longest_spec s k'.re
      obtain ⟨b0, b1, b2, b3, b4⟩ := hb
      have hnn : n ≤ n' := b3 k n hsp.1 hsp.2.1
      cases hl' : (Kind.re k').longest s with
      | none => rw [hl'] at hsp'; exact absurd b2 (hsp' n' b1)
      | some m =>
        rw [hl'] at hsp'
        obtain ⟨c1, c2⟩ := h2 k' (mem_kinds k') m hl'
        have := hsp'.2.2 n' b1 b2
        have := b3 k' m hsp'.1 hsp'.2.1
        have hmn : m = n := by omega
        have hn : n = n' := by omega
        subst hn
        rw [e]
        rcases b4 k hsp.2.1 with rfl | h
        · rfl
        · rcases c2 hmn with rfl | h'
          · rfl
          · omega
    · exact absurd hsp.2.1 (hb k n h0 hsp.1)

theorem lexStep_best {s : Str} {k : Kind} {n : Nat} : lexStep s = some (k, n) ↔ BestRe s k n := by
  rw [lexStep_eq, scan_iff]

theorem lexStep_none {s : Str} : lexStep s = none ↔ NoMatchRe s := by
  rw [lexStep_eq, scan_none]

theorem trim_quoted (b : Str) : trimString ('"' :: (b ++ ['"'])) = some b := by
  simp [trimString]

/-- The callbacks never fail on a matched slice. -/
theorem mkToken_denotes {k : Kind} {w : Str} (h : k.re.Matches w) : ∃ t, mkToken k w = some t ∧ Denotes (k, w) t ∧ tokenText t = w := by
  rw [match_shape] at h
  cases k <;> simp only at h
  case string =>
    obtain ⟨b, rfl, hb⟩ := h
    refine ⟨.string b, by simp [mkToken, trim_quoted], .string b, ?_⟩
    show ['"'] ++ b ++ ['"'] = _
    simp
  case ws => exact ⟨_, rfl, .ws w, rfl⟩
  case element => exact ⟨_, rfl, .element w, rfl⟩
  case comment => exact ⟨_, rfl, .comment w, rfl⟩
  all_goals (subst h; exact ⟨_, rfl, by constructor, rfl⟩)

theorem denotes_unique {k : Kind} {w : Str} {t t' : Token} (h : Denotes (k, w) t) (h' : Denotes (k, w) t') : t = t' := by
  have key : ∀ {p p' : Kind × Str}, Denotes p t → Denotes p' t' → p = p' → t = t' := by
    intro p p' h h' hp
    cases h <;> cases h' <;> simp_all
  exact key h h' rfl

end Lexer
end Verif
