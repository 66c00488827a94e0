import Verif.Spec.JsonText
import Verif.Proofs.Serde
/-!
# The JSON reader accepts exactly the texts of `Spec/JsonText`
-/
namespace Verif
namespace Serde
open Spec.JsonText

/-! ## White space -/

theorem skipWs_ws {w : Str} (h : Ws w) (r : Str) : skipWs (w ++ r) = skipWs r := by
  induction w with
  | nil => rfl
  | cons c w ih =>
    have hc := h c (by simp)
    rw [List.cons_append, skipWs, if_pos (by simp at hc; rcases hc with h | h | h | h <;> subst h <;> decide)]
    exact ih (fun x hx => h x (by simp [hx]))

theorem skipWs_split (s : Str) : ∃ w, Ws w ∧ s = w ++ skipWs s := by
  induction s with
  | nil => exact ⟨[], by intro c h; simp at h, rfl⟩
  | cons c s ih =>
    obtain ⟨w, hw, e⟩ := ih
    by_cases h : (c = ' ' || c = '\n' || c = '\t' || c = '\r') = true
    · refine ⟨c :: w, ?_, ?_⟩
      · intro x hx
        rcases List.mem_cons.mp hx with hx | hx
        · subst hx; simp at h ⊢; grind
        · exact hw x hx
      · rw [skipWs, if_pos h, List.cons_append, ← e]
    · refine ⟨[], by intro c h; simp at h, ?_⟩
      rw [skipWs, if_neg h]; rfl

/-! ## Strings -/

theorem hexVal_iff (c : Char) (n : Nat) : hexVal c = some n ↔ Digit c n := by
  constructor
  · intro h
    have hc : c = Char.ofNat c.toNat := (Char.ofNat_toNat c).symm
    unfold hexVal at h
    unfold Digit
    generalize c.toNat = k at *
    subst hc
    split at h
    · rename_i hk
      simp at hk h
      left
      have : n = 0 ∨ n = 1 ∨ n = 2 ∨ n = 3 ∨ n = 4 ∨ n = 5 ∨ n = 6 ∨ n = 7 ∨ n = 8 ∨ n = 9 := by omega
      have e : k = n + 48 := by omega
      subst e
      rcases this with h|h|h|h|h|h|h|h|h|h <;> subst h <;> rfl
    · split at h
      · rename_i hk
        simp at hk h
        left
        have : n = 10 ∨ n = 11 ∨ n = 12 ∨ n = 13 ∨ n = 14 ∨ n = 15 := by omega
        have e : k = n + 87 := by omega
        subst e
        rcases this with h|h|h|h|h|h <;> subst h <;> rfl
      · split at h
        · rename_i hk
          simp at hk h
          right
          have : n = 10 ∨ n = 11 ∨ n = 12 ∨ n = 13 ∨ n = 14 ∨ n = 15 := by omega
          have e : k = n + 55 := by omega
          subst e
          rcases this with h|h|h|h|h|h <;> subst h <;> rfl
        · cases h
  · intro h
    have hn : n < 16 := by
      rcases h with h | h <;> (have := (List.getElem?_eq_some_iff.mp h).1; simpa [lit] using this)
    have : n = 0 ∨ n = 1 ∨ n = 2 ∨ n = 3 ∨ n = 4 ∨ n = 5 ∨ n = 6 ∨ n = 7 ∨ n = 8 ∨ n = 9 ∨ n = 10 ∨ n = 11 ∨ n = 12 ∨ n = 13 ∨ n = 14 ∨ n = 15 := by
      omega
    rcases this with e|e|e|e|e|e|e|e|e|e|e|e|e|e|e|e <;> subst e <;> rcases h with h | h <;>
      (have hc := Option.some.inj h; subst hc; decide)

theorem hex4_iff (a b c d : Char) (n : Nat) : hex4 a b c d = some n ↔ Digits a b c d n := by
  unfold hex4 Digits
  constructor
  · intro h
    rcases ha : hexVal a with _ | i
    · rw [ha] at h; simp at h
    rcases hb : hexVal b with _ | j
    · rw [ha, hb] at h; simp at h
    rcases hc : hexVal c with _ | k
    · rw [ha, hb, hc] at h; simp at h
    rcases hd : hexVal d with _ | l
    · rw [ha, hb, hc, hd] at h; simp at h
    rw [ha, hb, hc, hd] at h
    simp at h
    exact ⟨i, j, k, l, (hexVal_iff _ _).mp ha, (hexVal_iff _ _).mp hb, (hexVal_iff _ _).mp hc, (hexVal_iff _ _).mp hd, by omega⟩
  · rintro ⟨i, j, k, l, ha, hb, hc, hd, e⟩
    rw [(hexVal_iff _ _).mpr ha, (hexVal_iff _ _).mpr hb, (hexVal_iff _ _).mpr hc, (hexVal_iff _ _).mpr hd]
    simp; omega

/-- Reading a body up to the closing quote. -/
theorem readString_of_body {k t : Str} (h : Body k t) (rest : Str) : readString (k ++ '"' :: rest) = some (some t, rest) := by
  induction h with
  | nil => simp [readString]
  | @plain c k t h1 h2 h3 _ ih =>
    rw [List.cons_append, readString]
    · rw [if_neg (by simp [h3]; omega), ih]; rfl
    · intro e; exact h2 e
    · intro _ _ _ _ _ e; exact (h3 e).elim
    · intro _ _ e; exact (h3 e).elim
  | @escape e x k t h1 _ ih =>
    rw [List.cons_append, List.cons_append]
    have hu : e ≠ 'u' := by rintro rfl; simp [escapes] at h1
    rw [readString]
    · simp only [escapes, List.mem_cons, Prod.mk.injEq, List.not_mem_nil, or_false] at h1
      rcases h1 with ⟨rfl, rfl⟩ | ⟨rfl, rfl⟩ | ⟨rfl, rfl⟩ | ⟨rfl, rfl⟩ | ⟨rfl, rfl⟩ | ⟨rfl, rfl⟩ | ⟨rfl, rfl⟩ | ⟨rfl, rfl⟩ <;>
        (rw [ih]; rfl)
    · intro _ _ _ _ _ e'; exact (hu e').elim
  | @unicode a b c d n k t h1 h2 _ ih =>
    simp only [List.cons_append]
    rw [readString, (hex4_iff _ _ _ _ _).mpr h1]
    simp only []
    rw [if_neg (by simp; omega), if_neg (by simp; omega), ih]
    rfl
  | @pair a b c d n a' b' c' d' m k t h1 h2 h3 h4 h5 h6 _ ih =>
    simp only [List.cons_append]
    rw [readString, (hex4_iff _ _ _ _ _).mpr h1]
    simp only []
    rw [if_pos (by simp; omega), (hex4_iff _ _ _ _ _).mpr h4]
    simp only []
    rw [if_pos (by simp; omega), ih]
    rfl

theorem loose_unicode {a b c d : Char} {k : Str} (h : Loose ('\\' :: 'u' :: a :: b :: c :: d :: k)) : (∃ n, Digits a b c d n) ∧ Loose k := by
  cases h with
  | plain _ _ h _ => exact absurd rfl h
  | escape h _ => simp [escapes] at h
  | unicode h h' => exact ⟨⟨_, h⟩, h'⟩

/-- Whatever may stand between the quotes is read up to the closing quote. -/
theorem readString_of_loose : ∀ (n : Nat) (k : Str), k.length ≤ n → Loose k → ∃ o, ∀ rest, readString (k ++ '"' :: rest) = some (o, rest) := by
  intro n
  induction n with
  | zero =>
    intro k hk _
    have : k = [] := List.eq_nil_of_length_eq_zero (by omega)
    subst this
    exact ⟨some [], fun rest => by simp [readString]⟩
  | succ n ih =>
    intro k hk h
    cases h with
    | nil => exact ⟨some [], fun rest => by simp [readString]⟩
    | @plain c k h1 h2 h3 h =>
      obtain ⟨o, ho⟩ := ih k (by simp at hk; omega) h
      refine ⟨o.map (c :: ·), fun rest => ?_⟩
      rw [List.cons_append, readString]
      · rw [if_neg (by simp [h3]; omega), ho]; rfl
      · intro e; exact h2 e
      · intro _ _ _ _ _ e; exact (h3 e).elim
      · intro _ _ e; exact (h3 e).elim
    | @escape e x k h1 h =>
      obtain ⟨o, ho⟩ := ih k (by simp at hk; omega) h
      refine ⟨o.map (x :: ·), fun rest => ?_⟩
      rw [List.cons_append, List.cons_append]
      have hu : e ≠ 'u' := by rintro rfl; simp [escapes] at h1
      rw [readString]
      · simp only [escapes, List.mem_cons, Prod.mk.injEq, List.not_mem_nil, or_false] at h1
        rcases h1 with ⟨rfl, rfl⟩ | ⟨rfl, rfl⟩ | ⟨rfl, rfl⟩ | ⟨rfl, rfl⟩ | ⟨rfl, rfl⟩ | ⟨rfl, rfl⟩ | ⟨rfl, rfl⟩ | ⟨rfl, rfl⟩ <;>
          (rw [ho]; rfl)
      · intro _ _ _ _ _ e'; exact (hu e').elim
    | @unicode a b c d m k h1 h =>
      have hl : k.length ≤ n := by simp at hk; omega
      obtain ⟨o, ho⟩ := ih k hl h
      by_cases hm : 0xD800 ≤ m ∧ m ≤ 0xDBFF
      · by_cases hk' : ∃ a' b' c' d' k', k = '\\' :: 'u' :: a' :: b' :: c' :: d' :: k'
        · obtain ⟨a', b', c', d', k', e⟩ := hk'
          subst e
          obtain ⟨⟨m', hm'⟩, hk'⟩ := loose_unicode h
          by_cases ht : 0xDC00 ≤ m' ∧ m' ≤ 0xDFFF
          · obtain ⟨o', ho'⟩ := ih k' (by simp at hl; omega) hk'
            refine ⟨o'.map (Char.ofNat (0x10000 + (m - 0xD800) * 0x400 + (m' - 0xDC00)) :: ·), fun rest => ?_⟩
            simp only [List.cons_append]
            rw [readString, (hex4_iff _ _ _ _ _).mpr h1]
            simp only []
            rw [if_pos (by simp; omega), (hex4_iff _ _ _ _ _).mpr hm']
            simp only []
            rw [if_pos (by simp; omega), ho']; rfl
          · refine ⟨none, fun rest => ?_⟩
            have := ho rest
            simp only [List.cons_append] at this ⊢
            rw [readString, (hex4_iff _ _ _ _ _).mpr h1]
            simp only []
            rw [if_pos (by simp; omega), (hex4_iff _ _ _ _ _).mpr hm']
            simp only []
            rw [if_neg (by simp; omega), this]; rfl
        · refine ⟨none, fun rest => ?_⟩
          have hr := ho rest
          simp only [List.cons_append]
          rw [readString, (hex4_iff _ _ _ _ _).mpr h1]
          simp only []
          rw [if_pos (by simp; omega)]
          split
          · rename_i a' b' c' d' r' e
            exfalso
            apply hk'
            cases h with
            | nil => cases e
            | plain _ _ hb _ => rw [List.cons_append] at e; exact absurd (List.cons.inj e).1 hb
            | escape hb _ =>
              rw [List.cons_append, List.cons_append] at e
              rw [(List.cons.inj (List.cons.inj e).2).1] at hb
              simp [escapes] at hb
            | unicode _ _ => exact ⟨_, _, _, _, _, rfl⟩
          · rw [hr]; rfl
      · by_cases ht : 0xDC00 ≤ m ∧ m ≤ 0xDFFF
        · refine ⟨none, fun rest => ?_⟩
          simp only [List.cons_append]
          rw [readString, (hex4_iff _ _ _ _ _).mpr h1]
          simp only []
          rw [if_neg (by simp; omega), if_pos (by simp; omega), ho]; rfl
        · refine ⟨o.map (Char.ofNat m :: ·), fun rest => ?_⟩
          simp only [List.cons_append]
          rw [readString, (hex4_iff _ _ _ _ _).mpr h1]
          simp only []
          rw [if_neg (by simp; omega), if_neg (by simp; omega), ho]; rfl

theorem map_readString {r : Str} {f : Option Str → Option Str} {o : Option Str} {rest : Str}
    (h : (readString r).map (fun p => (f p.1, p.2)) = some (o, rest)) : ∃ o', readString r = some (o', rest) ∧ o = f o' := by
  obtain ⟨⟨o', r'⟩, e, h'⟩ := Option.map_eq_some_iff.mp h
  cases h'
  exact ⟨o', e, rfl⟩

theorem loose_of_readString (s : Str) : ∀ {o : Option Str} {rest : Str}, readString s = some (o, rest) →
    ∃ k, s = k ++ '"' :: rest ∧ Loose k ∧ ∀ t, o = some t → Body k t := by
  fun_induction readString s <;> intro o rest' h
  all_goals first | (cases h; done) | skip
  case case1 => cases h; exact ⟨[], rfl, .nil, by intro t e; cases e; exact .nil⟩
  case case4 n hx hn a' b' c' d' r m hx' hm ih =>
    obtain ⟨o', e, rfl⟩ := map_readString h
    obtain ⟨k, ek, hl, hk⟩ := ih e
    simp at hn hm
    refine ⟨_, by rw [ek]; rfl, .unicode ((hex4_iff _ _ _ _ _).mp hx) (.unicode ((hex4_iff _ _ _ _ _).mp hx') hl), ?_⟩
    intro t et
    obtain ⟨t', rfl, rfl⟩ := Option.map_eq_some_iff.mp et
    exact .pair ((hex4_iff _ _ _ _ _).mp hx) hn.1 hn.2 ((hex4_iff _ _ _ _ _).mp hx') hm.1 hm.2 (hk t' rfl)
  case case5 n hx hn a' b' c' d' r m hx' hm ih =>
    obtain ⟨o', e, rfl⟩ := map_readString (f := fun _ => none) h
    obtain ⟨k, ek, hl, hk⟩ := ih e
    exact ⟨_, by rw [ek]; rfl, .unicode ((hex4_iff _ _ _ _ _).mp hx) hl, by intro t et; cases et⟩
  case case6 n hx hn r _ ih =>
    obtain ⟨o', e, rfl⟩ := map_readString (f := fun _ => none) h
    obtain ⟨k, ek, hl, hk⟩ := ih e
    exact ⟨_, by rw [ek]; rfl, .unicode ((hex4_iff _ _ _ _ _).mp hx) hl, by intro t et; cases et⟩
  case case7 r n hx hn hm ih =>
    obtain ⟨o', e, rfl⟩ := map_readString (f := fun _ => none) h
    obtain ⟨k, ek, hl, hk⟩ := ih e
    exact ⟨_, by rw [ek]; rfl, .unicode ((hex4_iff _ _ _ _ _).mp hx) hl, by intro t et; cases et⟩
  case case8 r n hx hn hm ih =>
    obtain ⟨o', e, rfl⟩ := map_readString h
    obtain ⟨k, ek, hl, hk⟩ := ih e
    simp at hn hm
    refine ⟨_, by rw [ek]; rfl, .unicode ((hex4_iff _ _ _ _ _).mp hx) hl, ?_⟩
    intro t et
    obtain ⟨t', rfl, rfl⟩ := Option.map_eq_some_iff.mp et
    exact .unicode ((hex4_iff _ _ _ _ _).mp hx) (by omega) (hk t' rfl)
  case case10 e' r _ x hx ih =>
    obtain ⟨o', e, rfl⟩ := map_readString h
    obtain ⟨k, ek, hl, hk⟩ := ih e
    have hm : (e', x) ∈ escapes := by
      simp only [escapes, List.mem_cons, Prod.mk.injEq, List.not_mem_nil, or_false]
      clear ih hk ek e h
      split at hx
      · cases hx; simp_all
      repeat (split at hx; (· cases hx; simp_all))
      cases hx
    refine ⟨_, by rw [ek]; rfl, .escape hm hl, ?_⟩
    intro t et
    obtain ⟨t', rfl, rfl⟩ := Option.map_eq_some_iff.mp et
    exact .escape hm (hk t' rfl)
  case case12 c r h1 _ _ h2 ih =>
    obtain ⟨o', e, rfl⟩ := map_readString h
    obtain ⟨k, ek, hl, hk⟩ := ih e
    simp at h2
    refine ⟨_, by rw [ek]; rfl, .plain (by omega) h1 h2.1 hl, ?_⟩
    intro t et
    obtain ⟨t', rfl, rfl⟩ := Option.map_eq_some_iff.mp et
    exact .plain (by omega) h1 h2.1 (hk t' rfl)

theorem readString_of {k : Str} {o : Option Str} (h : StringOf k o) (rest : Str) : readString (k ++ '"' :: rest) = some (o, rest) := by
  cases o with
  | some t => exact readString_of_body h rest
  | none =>
    obtain ⟨o, ho⟩ := readString_of_loose _ k (Nat.le_refl _) h.1
    rw [ho]
    cases o with
    | none => rfl
    | some t =>
      obtain ⟨k', ek, _, hb⟩ := loose_of_readString _ (ho rest)
      rw [List.append_cancel_right ek] at h
      exact absurd (hb t rfl) (h.2 t)

theorem of_readString {s : Str} {o : Option Str} {rest : Str} (h : readString s = some (o, rest)) :
    ∃ k, s = k ++ '"' :: rest ∧ StringOf k o := by
  obtain ⟨k, ek, hl, hb⟩ := loose_of_readString s h
  refine ⟨k, ek, ?_⟩
  cases o with
  | some t => exact hb t rfl
  | none =>
    refine ⟨hl, fun t ht => ?_⟩
    rw [ek, readString_of_body ht] at h
    cases h

/-! ## Numbers -/

theorem isDigit_iff (c : Char) : isDigit c = true ↔ c ∈ lit "0123456789" := by
  constructor
  · intro h
    have hc : c = Char.ofNat c.toNat := (Char.ofNat_toNat c).symm
    simp only [isDigit, Bool.and_eq_true, decide_eq_true_eq] at h
    generalize c.toNat = k at *
    subst hc
    have : k = 48 ∨ k = 49 ∨ k = 50 ∨ k = 51 ∨ k = 52 ∨ k = 53 ∨ k = 54 ∨ k = 55 ∨ k = 56 ∨ k = 57 := by omega
    rcases this with h|h|h|h|h|h|h|h|h|h <;> subst h <;> decide
  · intro h
    simp [lit] at h
    rcases h with h|h|h|h|h|h|h|h|h|h <;> subst h <;> decide

/-- What cannot be the rest of a number. -/
def Stops (c : Char) : Prop := isDigit c = false ∧ c ≠ '.' ∧ c ≠ 'e' ∧ c ≠ 'E'

/-- The text does not go on as a number would. -/
def Stop (rest : Str) : Prop := ∀ c r, rest = c :: r → Stops c

theorem stop_nil : Stop [] := by intro c r h; cases h
theorem stop_cons {c : Char} (h : Stops c) (r : Str) : Stop (c :: r) := by intro c r h; cases h; assumption
theorem stops_ws {c : Char} (h : c ∈ [' ', '\n', '\r', '\t']) : Stops c := by
  simp at h; rcases h with h | h | h | h <;> subst h <;> (unfold Stops; decide)
theorem stop_ws {w : Str} (hw : Ws w) {rest : Str} (h : Stop rest) : Stop (w ++ rest) := by
  cases w with
  | nil => exact h
  | cons c w => exact stop_cons (stops_ws (hw c (by simp))) _

theorem skipDigits_append {ds rest : Str} (h : ∀ c ∈ ds, c ∈ lit "0123456789") (hr : ∀ c r, rest = c :: r → isDigit c = false) :
    skipDigits (ds ++ rest) = rest := by
  induction ds with
  | nil =>
    cases rest with
    | nil => rfl
    | cons c r => rw [List.nil_append, skipDigits, hr c r rfl]; simp
  | cons d ds ih =>
    rw [List.cons_append, skipDigits, (isDigit_iff d).mpr (h d (by simp)), if_pos rfl]
    exact ih (fun c hc => h c (by simp [hc]))

theorem someDigits_append {ds rest : Str} (h : Decimal ds) (hr : ∀ c r, rest = c :: r → isDigit c = false) :
    someDigits (ds ++ rest) = some rest := by
  cases ds with
  | nil => exact absurd rfl h.1
  | cons d ds =>
    rw [List.cons_append, someDigits, (isDigit_iff d).mpr (h.2 d (by simp)), if_pos rfl,
      skipDigits_append (fun c hc => h.2 c (by simp [hc])) hr]

theorem skipDigits_split (s : Str) : ∃ ds, (∀ c ∈ ds, c ∈ lit "0123456789") ∧ s = ds ++ skipDigits s := by
  induction s with
  | nil => exact ⟨[], by simp, rfl⟩
  | cons c s ih =>
    obtain ⟨ds, hd, e⟩ := ih
    rw [skipDigits]
    split
    · rename_i h
      refine ⟨c :: ds, ?_, by rw [List.cons_append, ← e]⟩
      intro x hx
      rcases List.mem_cons.mp hx with rfl | hx
      · exact (isDigit_iff _).mp h
      · exact hd x hx
    · exact ⟨[], by simp, rfl⟩

theorem someDigits_split {s r : Str} (h : someDigits s = some r) : ∃ ds, Decimal ds ∧ s = ds ++ r := by
  cases s with
  | nil => cases h
  | cons c s =>
    rw [someDigits] at h
    split at h
    · rename_i hc
      cases h
      obtain ⟨ds, hd, e⟩ := skipDigits_split s
      refine ⟨c :: ds, ⟨by simp, ?_⟩, by rw [List.cons_append, ← e]⟩
      intro x hx
      rcases List.mem_cons.mp hx with rfl | hx
      · exact (isDigit_iff _).mp hc
      · exact hd x hx
    · cases h

/-- An exponent. -/
def ExpPart (exp : Str) : Prop :=
  exp = [] ∨ ∃ e sg ds, exp = e :: (sg ++ ds) ∧ e ∈ ['e', 'E'] ∧ sg ∈ [[], ['+'], ['-']] ∧ Decimal ds

/-- A fraction. -/
def FracPart (frac : Str) : Prop := frac = [] ∨ ∃ ds, frac = '.' :: ds ∧ Decimal ds

theorem decimal_head {ds : Str} (h : Decimal ds) : ∃ c r, ds = c :: r ∧ isDigit c = true := by
  cases ds with
  | nil => exact absurd rfl h.1
  | cons c r => exact ⟨c, r, rfl, (isDigit_iff c).mpr (h.2 c (by simp))⟩

theorem skipExponent_append {sg ds rest : Str} (hs : sg ∈ [[], ['+'], ['-']]) (hd : Decimal ds) (hr : ∀ c r, rest = c :: r → isDigit c = false) :
    skipExponent (sg ++ ds ++ rest) = some rest := by
  have hd' := someDigits_append hd hr
  simp at hs
  rcases hs with rfl | rfl | rfl
  · obtain ⟨c, r, e, hc⟩ := decimal_head hd
    rw [List.nil_append]
    subst e
    rw [List.cons_append, skipExponent]
    · exact hd'
    · rintro _ e; cases e; exact absurd hc (by decide)
    · rintro _ e; cases e; exact absurd hc (by decide)
  · exact hd'
  · exact hd'

theorem maybeExponent_append {exp rest : Str} (h : ExpPart exp) (hr : Stop rest) : maybeExponent (exp ++ rest) = some rest := by
  rcases h with rfl | ⟨e, sg, ds, rfl, he, hs, hd⟩
  · cases rest with
    | nil => rfl
    | cons c r =>
      have := hr c r rfl
      rw [List.nil_append, maybeExponent]
      · intro _ e; exact absurd (List.cons.inj e).1 this.2.2.1
      · intro _ e; exact absurd (List.cons.inj e).1 this.2.2.2
  · have h' := skipExponent_append (rest := rest) hs hd (fun c r e => (hr c r e).1)
    simp at he
    rcases he with rfl | rfl
    · exact h'
    · exact h'

theorem stop_exp {exp rest : Str} (h : ExpPart exp) (hr : Stop rest) : ∀ c r, exp ++ rest = c :: r → isDigit c = false ∧ c ≠ '.' := by
  rcases h with rfl | ⟨e, sg, ds, rfl, he, hs, hd⟩
  · intro c r e; exact ⟨(hr c r e).1, (hr c r e).2.1⟩
  · intro c r e
    cases e
    simp at he
    rcases he with rfl | rfl <;> decide

theorem maybeFraction_append {frac exp rest : Str} (hf : FracPart frac) (h : ExpPart exp) (hr : Stop rest) :
    maybeFraction (frac ++ (exp ++ rest)) = some rest := by
  have he := maybeExponent_append h hr
  rcases hf with rfl | ⟨ds, rfl, hd⟩
  · rw [List.nil_append]
    have hs := stop_exp h hr
    revert he hs
    generalize exp ++ rest = t
    intro he hs
    cases t with
    | nil => exact he
    | cons c r =>
      rw [maybeFraction]
      · exact he
      · intro _ e; exact absurd (List.cons.inj e).1 (hs c r rfl).2
  · show (someDigits (ds ++ (exp ++ rest))).bind maybeExponent = _
    rw [someDigits_append hd (fun c r e => (stop_exp h hr c r e).1)]
    exact he

theorem skipNumber_append {int frac exp rest : Str} (hi : Decimal int) (hz : int = ['0'] ∨ int.head? ≠ some '0') (hf : FracPart frac)
    (he : ExpPart exp) (hr : Stop rest) : skipNumber (int ++ (frac ++ (exp ++ rest))) = some rest := by
  have hm := maybeFraction_append hf he hr
  have hst : ∀ c r, frac ++ (exp ++ rest) = c :: r → isDigit c = false := by
    rcases hf with rfl | ⟨ds, rfl, hd⟩
    · intro c r e; exact (stop_exp he hr c r e).1
    · intro c r e; cases e; decide
  revert hm hst
  generalize frac ++ (exp ++ rest) = t
  intro hm hst
  have hd := someDigits_append hi hst
  by_cases hz0 : int = ['0']
  · subst hz0
    cases t with
    | nil => exact hm
    | cons c r =>
      show (if isDigit c then none else maybeFraction (c :: r)) = _
      rw [hst c r rfl]; exact hm
  · have hz1 : int.head? ≠ some '0' := hz.resolve_left hz0
    obtain ⟨c, r, e, _⟩ := decimal_head hi
    subst e
    rw [List.cons_append] at hd ⊢
    rw [skipNumber]
    · rw [hd]; exact hm
    · intro c' r' e; exact absurd (List.cons.inj e).1 (by simpa using hz1)

theorem skipExponent_split {s r : Str} (h : skipExponent s = some r) :
    ∃ sg ds, sg ∈ [[], ['+'], ['-']] ∧ Decimal ds ∧ s = sg ++ ds ++ r := by
  unfold skipExponent at h
  split at h
  · obtain ⟨ds, hd, rfl⟩ := someDigits_split h; exact ⟨['+'], ds, by simp, hd, rfl⟩
  · obtain ⟨ds, hd, rfl⟩ := someDigits_split h; exact ⟨['-'], ds, by simp, hd, rfl⟩
  · obtain ⟨ds, hd, rfl⟩ := someDigits_split h; exact ⟨[], ds, by simp, hd, rfl⟩

theorem maybeExponent_split {s r : Str} (h : maybeExponent s = some r) : ∃ exp, ExpPart exp ∧ s = exp ++ r := by
  unfold maybeExponent at h
  split at h
  · obtain ⟨sg, ds, hs, hd, rfl⟩ := skipExponent_split h
    exact ⟨_, .inr ⟨'e', sg, ds, rfl, by simp, hs, hd⟩, rfl⟩
  · obtain ⟨sg, ds, hs, hd, rfl⟩ := skipExponent_split h
    exact ⟨_, .inr ⟨'E', sg, ds, rfl, by simp, hs, hd⟩, rfl⟩
  · cases h; exact ⟨[], .inl rfl, rfl⟩

theorem maybeFraction_split {s r : Str} (h : maybeFraction s = some r) : ∃ frac exp, FracPart frac ∧ ExpPart exp ∧ s = frac ++ (exp ++ r) := by
  unfold maybeFraction at h
  split at h
  · obtain ⟨m, h1, h2⟩ := Option.bind_eq_some_iff.mp h
    obtain ⟨ds, hd, rfl⟩ := someDigits_split h1
    obtain ⟨exp, he, rfl⟩ := maybeExponent_split h2
    exact ⟨_, exp, .inr ⟨ds, rfl, hd⟩, he, rfl⟩
  · obtain ⟨exp, he, rfl⟩ := maybeExponent_split h
    exact ⟨[], exp, .inl rfl, he, rfl⟩

theorem skipNumber_split {s r : Str} (h : skipNumber s = some r) : ∃ int frac exp, Decimal int ∧ (int = ['0'] ∨ int.head? ≠ some '0') ∧
    FracPart frac ∧ ExpPart exp ∧ s = int ++ (frac ++ (exp ++ r)) := by
  have hz : Decimal ['0'] := ⟨by simp, by intro c hc; simp at hc; subst hc; decide⟩
  unfold skipNumber at h
  split at h
  · split at h
    · cases h
    · obtain ⟨frac, exp, hf, he, e⟩ := maybeFraction_split h
      exact ⟨['0'], frac, exp, hz, .inl rfl, hf, he, by rw [e]; rfl⟩
  · rename_i hne
    obtain ⟨m, h1, h2⟩ := Option.bind_eq_some_iff.mp h
    obtain ⟨ds, hd, rfl⟩ := someDigits_split h1
    obtain ⟨frac, exp, hf, he, rfl⟩ := maybeFraction_split h2
    refine ⟨ds, frac, exp, hd, ?_, hf, he, rfl⟩
    by_cases hh : ds.head? = some '0'
    · left
      match ds, hh with
      | c :: ds', hh =>
        simp at hh; subst hh
        rcases e : ds' ++ (frac ++ (exp ++ r)) with _ | ⟨x, t⟩
        · simp at e; rw [e.1]
        · exact absurd (by rw [List.cons_append, e]) (hne x t)
    · exact .inr hh

theorem number_head {s : Str} (h : Number s) : ∃ c r, s = c :: r ∧ (c = '-' ∨ isDigit c = true) := by
  obtain ⟨sign, int, frac, exp, rfl, hs, hi, _⟩ := h
  obtain ⟨c, r, rfl, hc⟩ := decimal_head hi
  rcases hs with rfl | rfl
  · exact ⟨c, _, rfl, .inr hc⟩
  · exact ⟨'-', _, rfl, .inl rfl⟩

/-! ## Trees: every text is read -/

/-- The first characters of a JSON value. -/
def Starts (c : Char) : Prop := c = 'n' ∨ c = 't' ∨ c = 'f' ∨ c = '"' ∨ c = '[' ∨ c = '{' ∨ c = '-' ∨ isDigit c = true

theorem starts_skip {c : Char} (h : Starts c) (r : Str) : skipWs (c :: r) = c :: r := by
  have : ¬ (c = ' ' || c = '\n' || c = '\t' || c = '\r') = true := by
    intro hw
    simp at hw
    rcases hw with ((hw | hw) | hw) | hw <;> subst hw <;> revert h <;> unfold Starts <;> decide
  rw [skipWs, if_neg this]

theorem starts_ne {c : Char} (h : Starts c) : c ≠ ']' ∧ c ≠ '}' := by
  constructor <;> rintro rfl <;> revert h <;> unfold Starts <;> decide

theorem core_head {s : Str} {j : Json} (h : Core s j) : ∃ c r, s = c :: r ∧ Starts c := by
  cases h with
  | null => exact ⟨'n', _, rfl, by simp [Starts]⟩
  | true_ => exact ⟨'t', _, rfl, by simp [Starts]⟩
  | false_ => exact ⟨'f', _, rfl, by simp [Starts]⟩
  | number h =>
    obtain ⟨c, r, e, h⟩ := number_head h
    exact ⟨c, r, e, by rcases h with h | h <;> simp [Starts, h]⟩
  | string _ => exact ⟨'"', _, rfl, by simp [Starts]⟩
  | brokenString _ => exact ⟨'"', _, rfl, by simp [Starts]⟩
  | emptyArray _ => exact ⟨'[', _, rfl, by simp [Starts]⟩
  | array _ => exact ⟨'[', _, rfl, by simp [Starts]⟩
  | emptyObject _ => exact ⟨'{', _, rfl, by simp [Starts]⟩
  | object _ => exact ⟨'{', _, rfl, by simp [Starts]⟩
  | brokenName _ _ => exact ⟨'{', _, rfl, by simp [Starts]⟩

theorem core_length {s : Str} {j : Json} (h : Core s j) : 1 ≤ s.length := by
  obtain ⟨c, r, e, _⟩ := core_head h
  rw [e]; simp

theorem skipWs_core {s : Str} {j : Json} (h : Core s j) {w : Str} (hw : Ws w) (r : Str) : skipWs (w ++ s ++ r) = s ++ r := by
  obtain ⟨c, t, e, h⟩ := core_head h
  rw [List.append_assoc, skipWs_ws hw, e, List.cons_append, starts_skip h]

theorem text_skip {s : Str} {j : Json} (h : Text s j) (r : Str) : ∃ c t, skipWs (s ++ r) = c :: t ∧ Starts c := by
  cases h with
  | padded hw hc hw' =>
    obtain ⟨c, t, e, h⟩ := core_head hc
    rw [List.append_assoc, skipWs_core hc hw, e]
    exact ⟨c, _, rfl, h⟩

theorem items_skip {s : Str} {js : List Json} (h : Items s js) (r : Str) : ∃ c t, skipWs (s ++ r) = c :: t ∧ c ≠ ']' := by
  have : ∃ c t, skipWs (s ++ r) = c :: t ∧ Starts c := by
    cases h with
    | one h => exact text_skip h r
    | more h _ => rw [List.append_assoc]; exact text_skip h _
  obtain ⟨c, t, e, h⟩ := this
  exact ⟨c, t, e, (starts_ne h).1⟩

theorem member_skip {s : Str} {m : Option Str × Json} (h : Member s m) (r : Str) : ∃ t, skipWs (s ++ r) = '"' :: t := by
  cases h with
  | mk hw _ _ _ =>
    simp only [List.append_assoc, List.cons_append]
    rw [skipWs_ws hw]
    exact ⟨_, rfl⟩

theorem members_skip {s : Str} {ms : List (Option Str × Json)} (h : Members s ms) (r : Str) : ∃ t, skipWs (s ++ r) = '"' :: t := by
  cases h with
  | one h => exact member_skip h r
  | more h _ => rw [List.append_assoc]; exact member_skip h _

theorem mkObject_some (ms : List (Str × Json)) : mkObject (ms.map fun m => (some m.1, m.2)) = .obj ms := by
  have : (ms.map fun m => ((some m.1 : Option Str), m.2)).mapM (fun m => m.1.map (fun k => (k, m.2))) = some ms := by
    induction ms with
    | nil => rfl
    | cons m ms ih => rw [List.map_cons, List.mapM_cons, ih]; rfl
  rw [mkObject, this]

theorem mkObject_none {ms : List (Option Str × Json)} (h : none ∈ ms.map Prod.fst) : mkObject ms = .other := by
  have : ms.mapM (fun m => m.1.map (fun k => (k, m.2))) = none := by
    induction ms with
    | nil => simp at h
    | cons m ms ih =>
      rw [List.mapM_cons]
      rcases hm : m.1 with _ | k
      · rfl
      · rw [ih (by simpa [hm] using h)]; rfl
  rw [mkObject, this]

theorem mkObject_cases (ms : List (Option Str × Json)) :
    (∃ ms', ms = ms'.map (fun m => (some m.1, m.2)) ∧ mkObject ms = .obj ms') ∨ (none ∈ ms.map Prod.fst ∧ mkObject ms = .other) := by
  by_cases h : none ∈ ms.map Prod.fst
  · exact .inr ⟨h, mkObject_none h⟩
  · left
    have : ∃ ms' : List (Str × Json), ms = ms'.map (fun m => (some m.1, m.2)) := by
      induction ms with
      | nil => exact ⟨[], rfl⟩
      | cons m ms ih =>
        obtain ⟨ms', e⟩ := ih (fun hn => h (by simp only [List.map_cons, List.mem_cons]; exact .inr hn))
        obtain ⟨k, j⟩ := m
        cases k with
        | none => exact absurd (by simp) h
        | some k => exact ⟨(k, j) :: ms', by rw [e]; rfl⟩
    obtain ⟨ms', rfl⟩ := this
    exact ⟨ms', rfl, mkObject_some ms'⟩

theorem readJson_number {s : Str} (h : Number s) (fuel : Nat) {rest : Str} (hr : Stop rest) :
    readJson (fuel + 1) (s ++ rest) = some (.other, rest) := by
  obtain ⟨c, r, e, hc⟩ := number_head h
  obtain ⟨sign, int, frac, exp, rfl, hs, hi, hz, hf, he⟩ := h
  have hn := skipNumber_append hi hz hf he hr
  have hsk : skipWs (sign ++ int ++ frac ++ exp ++ rest) = sign ++ int ++ frac ++ exp ++ rest := by
    rw [e, List.cons_append]; exact starts_skip (by rcases hc with hc | hc <;> simp [Starts, hc]) _
  rw [readJson, hsk]
  rcases hs with rfl | rfl
  · obtain ⟨d, t, rfl, hd⟩ := decimal_head hi
    have hd' := (isDigit_iff d).mp hd
    simp only [List.nil_append, List.cons_append, List.append_assoc] at hn ⊢
    split
    case h_8 c' r' _ _ _ _ _ _ _ e =>
      rw [← e, if_pos (by rw [← (List.cons.inj e).1]; exact hd), hn]; rfl
    case h_9 e => cases e
    all_goals
      rename_i e
      exfalso
      have e' := (List.cons.inj e).1
      subst e'
      exact absurd hd (by decide)
  · simp only [List.cons_append, List.nil_append, List.append_assoc] at hn ⊢
    rw [hn]; rfl

mutual
theorem read_text : ∀ {s : Str} {j : Json}, Text s j → ∃ w', Ws w' ∧ ∀ (fuel : Nat) (rest : Str), 2 * s.length ≤ fuel → Stop rest →
    readJson fuel (s ++ rest) = some (j, w' ++ rest)
  | _, _, @Text.padded w s w' j hw hc hw' => by
    refine ⟨w', hw', fun fuel rest hf hr => ?_⟩
    have := read_core hc fuel (w' ++ rest) w (by simp at hf; omega) (stop_ws hw' hr) hw
    rw [← this]; simp
theorem read_core : ∀ {s : Str} {j : Json}, Core s j → ∀ (fuel : Nat) (rest w : Str), 2 * s.length ≤ fuel → Stop rest → Ws w →
    readJson fuel (w ++ s ++ rest) = some (j, rest)
  | _, _, .null, fuel, rest, w, hf, hr, hw => by
    obtain ⟨f, rfl⟩ : ∃ f, fuel = f + 1 := ⟨fuel - 1, by simp [lit] at hf; omega⟩
    rw [readJson, skipWs_core .null hw]
    rfl
  | _, _, .true_, fuel, rest, w, hf, hr, hw => by
    obtain ⟨f, rfl⟩ : ∃ f, fuel = f + 1 := ⟨fuel - 1, by simp [lit] at hf; omega⟩
    rw [readJson, skipWs_core .true_ hw]
    rfl
  | _, _, .false_, fuel, rest, w, hf, hr, hw => by
    obtain ⟨f, rfl⟩ : ∃ f, fuel = f + 1 := ⟨fuel - 1, by simp [lit] at hf; omega⟩
    rw [readJson, skipWs_core .false_ hw]
    rfl
  | _, _, .number h, fuel, rest, w, hf, hr, hw => by
    obtain ⟨f, rfl⟩ : ∃ f, fuel = f + 1 := ⟨fuel - 1, by have := core_length (.number h); omega⟩
    have h1 := readJson_number h f hr
    obtain ⟨c, r, e, hc⟩ := core_head (.number h)
    rw [readJson] at h1 ⊢
    rw [skipWs_core (.number h) hw]
    rw [e, List.cons_append, starts_skip hc] at h1
    rw [e, List.cons_append]
    exact h1
  | _, _, @Core.string k t hb, fuel, rest, w, hf, hr, hw => by
    obtain ⟨f, rfl⟩ : ∃ f, fuel = f + 1 := ⟨fuel - 1, by simp at hf; omega⟩
    rw [readJson, skipWs_core (.string hb) hw]
    simp only [List.cons_append, List.append_assoc, List.nil_append]
    rw [readString_of_body hb]; rfl
  | _, _, @Core.brokenString k hb, fuel, rest, w, hf, hr, hw => by
    obtain ⟨f, rfl⟩ : ∃ f, fuel = f + 1 := ⟨fuel - 1, by simp at hf; omega⟩
    rw [readJson, skipWs_core (.brokenString hb) hw]
    simp only [List.cons_append, List.append_assoc, List.nil_append]
    rw [readString_of hb]; rfl
  | _, _, @Core.emptyArray w0 h0, fuel, rest, w, hf, hr, hw => by
    obtain ⟨f, rfl⟩ : ∃ f, fuel = f + 1 := ⟨fuel - 1, by simp at hf; omega⟩
    rw [readJson, skipWs_core (.emptyArray h0) hw]
    simp only [List.cons_append, List.append_assoc, List.nil_append]
    rw [skipWs_ws h0, show skipWs (']' :: rest) = ']' :: rest from rfl]; rfl
  | _, _, @Core.array s js h0, fuel, rest, w, hf, hr, hw => by
    obtain ⟨f, rfl⟩ : ∃ f, fuel = f + 1 := ⟨fuel - 1, by simp at hf; omega⟩
    rw [readJson, skipWs_core (.array h0) hw]
    simp only [List.cons_append, List.append_assoc, List.nil_append]
    obtain ⟨c, t, e, hc⟩ := items_skip h0 (']' :: rest)
    rw [e]
    have ih := read_items h0 f rest (by simp at hf; omega)
    split
    · rename_i h; cases h; exact absurd rfl hc
    · rw [ih]; rfl
  | _, _, @Core.emptyObject w0 h0, fuel, rest, w, hf, hr, hw => by
    obtain ⟨f, rfl⟩ : ∃ f, fuel = f + 1 := ⟨fuel - 1, by simp at hf; omega⟩
    rw [readJson, skipWs_core (.emptyObject h0) hw]
    simp only [List.cons_append, List.append_assoc, List.nil_append]
    rw [skipWs_ws h0, show skipWs ('}' :: rest) = '}' :: rest from rfl]; rfl
  | _, _, @Core.object s ms h0, fuel, rest, w, hf, hr, hw => by
    obtain ⟨f, rfl⟩ : ∃ f, fuel = f + 1 := ⟨fuel - 1, by simp at hf; omega⟩
    rw [readJson, skipWs_core (.object h0) hw]
    simp only [List.cons_append, List.append_assoc, List.nil_append]
    obtain ⟨t, e⟩ := members_skip h0 ('}' :: rest)
    rw [e]
    have ih := read_members h0 f rest (by simp at hf; omega)
    split
    · rename_i h; cases h
    · rw [ih, ← mkObject_some]; rfl
  | _, _, @Core.brokenName s ms h0 h1, fuel, rest, w, hf, hr, hw => by
    obtain ⟨f, rfl⟩ : ∃ f, fuel = f + 1 := ⟨fuel - 1, by simp at hf; omega⟩
    rw [readJson, skipWs_core (.brokenName h0 h1) hw]
    simp only [List.cons_append, List.append_assoc, List.nil_append]
    obtain ⟨t, e⟩ := members_skip h0 ('}' :: rest)
    rw [e]
    have ih := read_members h0 f rest (by simp at hf; omega)
    split
    · rename_i h; cases h
    · rw [ih, ← mkObject_none h1]; rfl
theorem read_items : ∀ {s : Str} {js : List Json}, Items s js → ∀ (fuel : Nat) (rest : Str), 2 * s.length + 1 ≤ fuel →
    readItems fuel (s ++ ']' :: rest) = some (js, rest)
  | _, _, @Items.one s j h, fuel, rest, hf => by
    obtain ⟨f, rfl⟩ : ∃ f, fuel = f + 1 := ⟨fuel - 1, by omega⟩
    obtain ⟨w', hw', ih⟩ := read_text h
    rw [readItems, ih f _ (by omega) (stop_cons (by unfold Stops; decide) _)]
    simp only []
    rw [skipWs_ws hw']; rfl
  | _, _, @Items.more s j s' js h h', fuel, rest, hf => by
    obtain ⟨f, rfl⟩ : ∃ f, fuel = f + 1 := ⟨fuel - 1, by omega⟩
    obtain ⟨w', hw', ih⟩ := read_text h
    have ih' := read_items h' f rest (by simp at hf; omega)
    rw [readItems, List.append_assoc, List.cons_append, ih f _ (by simp at hf; omega) (stop_cons (by unfold Stops; decide) _)]
    simp only []
    rw [skipWs_ws hw', show skipWs (',' :: (s' ++ ']' :: rest)) = ',' :: (s' ++ ']' :: rest) from rfl]
    simp only []
    rw [ih']; rfl
theorem read_members : ∀ {s : Str} {ms : List (Option Str × Json)}, Members s ms → ∀ (fuel : Nat) (rest : Str), 2 * s.length + 1 ≤ fuel →
    readMembers fuel (s ++ '}' :: rest) = some (ms, rest)
  | _, _, @Members.one s m h, fuel, rest, hf => by
    obtain ⟨f, rfl⟩ : ∃ f, fuel = f + 1 := ⟨fuel - 1, by omega⟩
    rw [read_member h f _ (by omega) (stop_cons (by unfold Stops; decide) _)]
    rfl
  | _, _, @Members.more s m s' ms h h', fuel, rest, hf => by
    obtain ⟨f, rfl⟩ : ∃ f, fuel = f + 1 := ⟨fuel - 1, by omega⟩
    have ih' := read_members h' f rest (by simp at hf; omega)
    rw [List.append_assoc, List.cons_append, read_member h f _ (by simp at hf; omega) (stop_cons (by unfold Stops; decide) _),
      show skipWs (',' :: (s' ++ '}' :: rest)) = ',' :: (s' ++ '}' :: rest) from rfl]
    simp only []
    rw [ih']; rfl
theorem read_member : ∀ {s : Str} {m : Option Str × Json}, Member s m → ∀ (fuel : Nat) (rest : Str), 2 * s.length ≤ fuel → Stop rest →
    readMembers (fuel + 1) (s ++ rest) =
      (match skipWs rest with
        | ',' :: rest' => (readMembers fuel rest').map fun p => (m :: p.1, p.2)
        | '}' :: rest' => some ([m], rest')
        | _ => none)
  | _, _, @Member.mk w k name w' s j hw hb hw' h, fuel, rest, hf, hr => by
    obtain ⟨w2, hw2, ih⟩ := read_text h
    rw [readMembers]
    simp only [List.append_assoc, List.cons_append]
    rw [skipWs_ws hw, show ∀ x, skipWs ('"' :: x) = '"' :: x from fun _ => rfl]
    simp only []
    rw [readString_of hb]
    simp only []
    rw [skipWs_ws hw', show ∀ x, skipWs (':' :: x) = ':' :: x from fun _ => rfl]
    simp only []
    rw [ih fuel rest (by simp at hf; omega) hr]
    simp only []
    rw [skipWs_ws hw2]
    rcases skipWs rest with _ | ⟨c, r⟩
    · rfl
    · by_cases h1 : c = ','
      · subst h1; rfl
      · by_cases h2 : c = '}'
        · subst h2; rfl
        · simp [h1, h2]
end

/-! ## Trees: whatever is read was a text -/

theorem text_of_read : ∀ fuel : Nat,
    (∀ s j rest, readJson fuel s = some (j, rest) → ∃ w c, Ws w ∧ Core c j ∧ s = w ++ c ++ rest) ∧
    (∀ s js rest, readItems fuel s = some (js, rest) → ∃ p, Items p js ∧ s = p ++ ']' :: rest) ∧
    (∀ s ms rest, readMembers fuel s = some (ms, rest) → ∃ p, Members p ms ∧ s = p ++ '}' :: rest) := by
  intro fuel
  induction fuel with
  | zero => exact ⟨fun _ _ _ h => by simp [readJson] at h, fun _ _ _ h => by simp [readItems] at h, fun _ _ _ h => by simp [readMembers] at h⟩
  | succ f ih =>
    obtain ⟨ihj, ihi, ihm⟩ := ih
    have join : ∀ {s : Str} {j rest w c}, Ws w → Core c j → s = w ++ c ++ rest → ∀ {x r}, skipWs rest = x :: r → ∃ p, Text p j ∧ s = p ++ x :: r := by
      intro s j rest w c hw hc e x r er
      obtain ⟨w', hw', e'⟩ := skipWs_split rest
      exact ⟨w ++ c ++ w', .padded hw hc hw', by rw [e, List.append_assoc _ w', ← er, ← e']⟩
    refine ⟨?_, ?_, ?_⟩
    · intro s j rest h
      obtain ⟨w, hw, e⟩ := skipWs_split s
      rw [readJson] at h
      split at h
      · rename_i r es
        cases h
        exact ⟨w, _, hw, .null, by rw [e, es]; simp [lit]⟩
      · rename_i r es
        cases h
        exact ⟨w, _, hw, .true_, by rw [e, es]; simp [lit]⟩
      · rename_i r es
        cases h
        exact ⟨w, _, hw, .false_, by rw [e, es]; simp [lit]⟩
      · rename_i r es
        rcases er : readString r with _ | ⟨t, r'⟩
        · rw [er] at h; cases h
        · rw [er] at h; cases h
          obtain ⟨k, ek, hk⟩ := of_readString er
          cases t with
          | some t => exact ⟨w, _, hw, .string hk, by rw [e, es, ek]; simp⟩
          | none => exact ⟨w, _, hw, .brokenString hk, by rw [e, es, ek]; simp⟩
      · rename_i r es
        obtain ⟨w', hw', e'⟩ := skipWs_split r
        split at h
        · rename_i r' es'
          cases h
          exact ⟨w, _, hw, .emptyArray hw', by rw [e, es, e', es']; simp⟩
        · rcases er : readItems f r with _ | ⟨js, r'⟩
          · rw [er] at h; cases h
          · rw [er] at h; cases h
            obtain ⟨p, hp, ep⟩ := ihi _ _ _ er
            exact ⟨w, _, hw, .array hp, by rw [e, es, ep]; simp⟩
      · rename_i r es
        obtain ⟨w', hw', e'⟩ := skipWs_split r
        split at h
        · rename_i r' es'
          cases h
          exact ⟨w, _, hw, .emptyObject hw', by rw [e, es, e', es']; simp⟩
        · rcases er : readMembers f r with _ | ⟨ms, r'⟩
          · rw [er] at h; cases h
          · rw [er] at h; cases h
            obtain ⟨p, hp, ep⟩ := ihm _ _ _ er
            rcases mkObject_cases ms with ⟨ms', rfl, hm⟩ | ⟨hn, hm⟩
            · simp only [hm]; exact ⟨w, _, hw, .object hp, by rw [e, es, ep]; simp⟩
            · simp only [hm]; exact ⟨w, _, hw, .brokenName hp hn, by rw [e, es, ep]; simp⟩
      · rename_i r es
        obtain ⟨r', hr', h'⟩ := Option.map_eq_some_iff.mp h
        cases h'
        obtain ⟨int, frac, exp, hi, hz, hf, he, en⟩ := skipNumber_split hr'
        exact ⟨w, _, hw, .number ⟨['-'], int, frac, exp, rfl, .inr rfl, hi, hz, hf, he⟩, by rw [e, es, en]; simp⟩
      · rename_i c r _ _ _ _ _ _ _ es
        split at h
        · obtain ⟨r', hr', h'⟩ := Option.map_eq_some_iff.mp h
          cases h'
          obtain ⟨int, frac, exp, hi, hz, hf, he, en⟩ := skipNumber_split hr'
          exact ⟨w, _, hw, .number ⟨[], int, frac, exp, rfl, .inl rfl, hi, hz, hf, he⟩, by rw [e, es, en]; simp⟩
        · cases h
      · cases h
    · intro s js rest h
      rw [readItems] at h
      split at h
      · cases h
      · rename_i j r er
        obtain ⟨w, c, hw, hc, e⟩ := ihj _ _ _ er
        split at h
        · rename_i r' es
          obtain ⟨p, hp, ep⟩ := join hw hc e es
          rcases er' : readItems f r' with _ | ⟨js', r''⟩
          · rw [er'] at h; cases h
          · rw [er'] at h; cases h
            obtain ⟨p', hp', ep'⟩ := ihi _ _ _ er'
            exact ⟨_, .more hp hp', by rw [ep, ep']; simp⟩
        · rename_i r' es
          cases h
          obtain ⟨p, hp, ep⟩ := join hw hc e es
          exact ⟨_, .one hp, ep⟩
        · cases h
    · intro s ms rest h
      obtain ⟨w0, hw0, e0⟩ := skipWs_split s
      rw [readMembers] at h
      split at h
      · rename_i aq eq
        split at h
        · cases h
        · rename_i k ak ek
          obtain ⟨b, eb, hb⟩ := of_readString ek
          obtain ⟨w1, hw1, e1⟩ := skipWs_split ak
          split at h
          · rename_i ac ec
            split at h
            · cases h
            · rename_i j r er
              obtain ⟨w, c, hw, hc, e⟩ := ihj _ _ _ er
              have whole : ∀ {p : Str}, Text p j → ∀ {x r'}, ac = p ++ x :: r' → ∃ q, Member q (k, j) ∧ s = q ++ x :: r' := by
                intro p hp x r' ep
                exact ⟨_, .mk hw0 hb hw1 hp, by rw [e0, eq, eb, e1, ec, ep]; simp⟩
              split at h
              · rename_i r' es
                obtain ⟨p, hp, ep⟩ := join hw hc e es
                obtain ⟨q, hq, eq'⟩ := whole hp ep
                rcases er' : readMembers f r' with _ | ⟨ms', r''⟩
                · rw [er'] at h; cases h
                · rw [er'] at h; cases h
                  obtain ⟨p', hp', ep'⟩ := ihm _ _ _ er'
                  exact ⟨_, .more hq hp', by rw [eq', ep']; simp⟩
              · rename_i r' es
                cases h
                obtain ⟨p, hp, ep⟩ := join hw hc e es
                obtain ⟨q, hq, eq'⟩ := whole hp ep
                exact ⟨_, .one hq, eq'⟩
              · cases h
          · cases h
      · cases h

/-- The reader accepts exactly the texts of trees, as that tree. -/
theorem parse_iff (s : Str) (j : Json) : parse s = some j ↔ Text s j := by
  constructor
  · intro h
    unfold parse at h
    split at h
    · rename_i j' rest e
      split at h
      · rename_i hr
        cases h
        obtain ⟨w, c, hw, hc, es⟩ := (text_of_read _).1 _ _ _ e
        obtain ⟨w', hw', e'⟩ := skipWs_split rest
        rw [hr, List.append_nil] at e'
        rw [e'] at es
        exact es ▸ .padded hw hc hw'
      · cases h
    · cases h
  · intro h
    obtain ⟨w', hw', e⟩ := read_text h
    have := e (2 * s.length + 2) [] (by omega) stop_nil
    rw [List.append_nil, List.append_nil] at this
    rw [parse, this]
    simp only []
    rw [if_pos]
    have := skipWs_ws hw' []
    rwa [List.append_nil] at this

/-! ## What is written is a text -/

theorem jsonChar_special {c : Char} (h : ¬ (c = '"' ∨ c = '\\' ∨ c.toNat < 0x20)) : Display.jsonChar c = [c] := by
  have h1 : c ≠ '"' := fun e => h (.inl e)
  have h2 : c ≠ '\\' := fun e => h (.inr (.inl e))
  have h3 : ¬ c.toNat < 0x20 := fun e => h (.inr (.inr e))
  unfold Display.jsonChar
  rw [if_neg h1, if_neg h2, if_neg (by omega), if_neg (by omega), if_neg (by omega), if_neg (by omega), if_neg (by omega), if_neg h3]

theorem body_jsonChar (c : Char) {k t : Str} (h : Body k t) : Body (Display.jsonChar c ++ k) (c :: t) := by
  by_cases hs : c = '"' ∨ c = '\\' ∨ c.toNat < 0x20
  · rcases hs with hs | hs | hs
    · subst hs; exact .escape (by simp [escapes]) h
    · subst hs; exact .escape (by simp [escapes]) h
    · have : ∀ n < 0x20, Body (Display.jsonChar (Char.ofNat n) ++ k) (Char.ofNat n :: t) := by
        intro n hn
        have : n = 0 ∨ n = 1 ∨ n = 2 ∨ n = 3 ∨ n = 4 ∨ n = 5 ∨ n = 6 ∨ n = 7 ∨ n = 8 ∨ n = 9 ∨ n = 10 ∨ n = 11 ∨ n = 12 ∨ n = 13 ∨ n = 14 ∨
          n = 15 ∨ n = 16 ∨ n = 17 ∨ n = 18 ∨ n = 19 ∨ n = 20 ∨ n = 21 ∨ n = 22 ∨ n = 23 ∨ n = 24 ∨ n = 25 ∨ n = 26 ∨ n = 27 ∨ n = 28 ∨
          n = 29 ∨ n = 30 ∨ n = 31 := by omega
        rcases this with h'|h'|h'|h'|h'|h'|h'|h'|h'|h'|h'|h'|h'|h'|h'|h'|h'|h'|h'|h'|h'|h'|h'|h'|h'|h'|h'|h'|h'|h'|h'|h' <;> subst h' <;>
          first
            | (rw [show Display.jsonChar _ = ['\\', _] from rfl]; exact .escape (by decide) h)
            | (rw [show Display.jsonChar _ = ['\\', 'u', '0', '0', _, _] from rfl]
               exact .unicode ((hex4_iff _ _ _ _ _).mp (by decide)) (.inl (by decide)) h)
      rw [show c = Char.ofNat c.toNat from (Char.ofNat_toNat c).symm]
      exact this _ hs
  · rw [jsonChar_special hs]
    exact .plain (by omega) (fun e => hs (.inl e)) (fun e => hs (.inr (.inl e))) h

theorem body_jsonBody (s : Str) : Body (Display.jsonBody s) s := by
  induction s with
  | nil => exact .nil
  | cons c s ih =>
    have : Display.jsonBody (c :: s) = Display.jsonChar c ++ Display.jsonBody s := by simp [Display.jsonBody]
    rw [this]
    exact body_jsonChar c ih

theorem ws_nil : Ws [] := by intro c h; cases h

theorem text_core {s : Str} {j : Json} (h : Core s j) : Text s j := by
  have := Text.padded ws_nil h ws_nil
  rwa [List.nil_append, List.append_nil] at this

mutual
theorem core_text : ∀ j : Json, Core (text j) j
  | .null => by rw [text]; exact .null
  | .other => by
    rw [text]
    exact .number ⟨[], ['0'], [], [], rfl, .inl rfl, ⟨by simp, by intro c hc; simp at hc; subst hc; decide⟩, .inl rfl, .inl rfl, .inl rfl⟩
  | .str s => by rw [text, Display.jsonStr]; exact .string (body_jsonBody s)
  | .arr [] => by rw [text, textItems]; exact .emptyArray ws_nil
  | .arr (j :: js) => by rw [text]; exact .array (items_text (j :: js) (by simp))
  | .obj [] => by rw [text, textMembers]; exact .emptyObject ws_nil
  | .obj (m :: ms) => by rw [text]; exact .object (members_text (m :: ms) (by simp))
theorem items_text : ∀ (js : List Json), js ≠ [] → Items (textItems js) js
  | [], h => absurd rfl h
  | [j], _ => by
    have := text_core (core_text j)
    simp only [textItems, List.append_nil]
    exact .one this
  | j :: j' :: js, _ => by
    have := text_core (core_text j)
    have ih := items_text (j' :: js) (by simp)
    rw [textItems, List.append_assoc]
    exact .more this ih
theorem members_text : ∀ (ms : List (Str × Json)), ms ≠ [] → Members (textMembers ms) (ms.map fun m => (some m.1, m.2))
  | [], h => absurd rfl h
  | [(k, j)], _ => by
    have hm := @Member.mk [] _ (some k) [] _ _ ws_nil (body_jsonBody k) ws_nil (text_core (core_text j))
    have e : textMembers [(k, j)] = [] ++ '"' :: Display.jsonBody k ++ '"' :: [] ++ ':' :: text j := by
      simp [textMembers, Display.jsonStr]
    rw [e]
    exact .one hm
  | (k, j) :: m' :: ms, _ => by
    have hm := @Member.mk [] _ (some k) [] _ _ ws_nil (body_jsonBody k) ws_nil (text_core (core_text j))
    have e : textMembers ((k, j) :: m' :: ms) = ([] ++ '"' :: Display.jsonBody k ++ '"' :: [] ++ ':' :: text j) ++ ',' :: textMembers (m' :: ms) := by
      rw [textMembers]; simp [Display.jsonStr]
    rw [e]
    exact .more hm (members_text (m' :: ms) (by simp))
end

theorem parse_text (j : Json) : parse (text j) = some j := (parse_iff _ _).mpr (text_core (core_text j))

theorem text_inj {j j' : Json} (h : text j = text j') : j = j' := by
  have h1 := parse_text j
  rw [h, parse_text j'] at h1
  exact (Option.some.inj h1).symm

/-! ## Types -/

theorem readStr_iff (j : Json) (s : Str) : readStr j = some s ↔ j = .str s := by
  cases j <;> simp [readStr]

theorem readOptional_iff (j : Json) (o : Option Str) : readOptional j = some o ↔ Opt j o := by
  cases j <;> cases o <;> simp [readOptional, Opt]

theorem readElement_iff (d : Nat) (j : Json) (e : Element) : readElement d j = some e ↔ Elem (d - 1) j e := by
  unfold readElement Elem
  split
  · rename_i t n l
    by_cases hd : d - 1 = 0
    · rw [if_pos hd]
      constructor
      · intro h; cases h
      · rintro ⟨h, _⟩; omega
    rw [if_neg hd]
    constructor
    · intro h
      rcases h1 : readStr t with _ | a
      · rw [h1] at h; simp at h
      rcases h2 : readOptional n with _ | b
      · rw [h1, h2] at h; simp at h
      rcases h3 : readOptional l with _ | c
      · rw [h1, h2, h3] at h; simp at h
      rw [h1, h2, h3] at h
      simp at h; subst h
      exact ⟨by omega, n, l, by rw [(readStr_iff _ _).mp h1], (readOptional_iff _ _).mp h2, (readOptional_iff _ _).mp h3⟩
    · rintro ⟨_, n', l', e1, h2, h3⟩
      simp at e1
      obtain ⟨rfl, rfl, rfl⟩ := e1
      rw [(readOptional_iff _ _).mpr h2, (readOptional_iff _ _).mpr h3]
      rfl
  · rename_i hne
    constructor
    · intro h; cases h
    · rintro ⟨_, n, l, e1, _⟩; exact (hne _ _ _ e1).elim

theorem field_iff (name : Str) (ms : List (Str × Json)) (j : Json) : field name ms = some j ↔ ms.filter (fun m => m.1 = name) = [(name, j)] := by
  have hall : ∀ m ∈ ms.filter (fun m => m.1 = name), m.1 = name := by
    intro m hm; simpa using (List.mem_filter.mp hm).2
  unfold field
  generalize ms.filter (fun m => m.1 = name) = l at *
  match l with
  | [] => simp
  | [m] =>
    have := hall m (by simp)
    simp
    constructor
    · intro h; exact Prod.ext this h
    · intro h; rw [h]
  | _ :: _ :: _ => simp

theorem fields2_iff (d : Nat) (a b : Str) (j x y : Json) : fields d [a, b] j = some [x, y] ↔ 2 ≤ d ∧ Struct j [(a, x), (b, y)] := by
  cases j with
  | null => simp [fields, Struct]
  | other => simp [fields, Struct]
  | str s => simp [fields, Struct]
  | arr l =>
    simp only [fields, Struct, List.length_cons, List.length_nil]
    by_cases hd : d - 1 = 0
    · rw [if_pos hd]
      constructor
      · intro h; cases h
      · rintro ⟨h, _⟩; omega
    rw [if_neg hd]
    constructor
    · intro h
      split at h
      · cases h; exact ⟨by omega, .inl rfl⟩
      · cases h
    · rintro ⟨_, h | ⟨ms, h, _⟩⟩
      · cases h; rfl
      · cases h
  | obj ms =>
    simp only [fields, Struct, List.mapM_cons, List.mapM_nil]
    by_cases hd : d - 1 = 0
    · rw [if_pos hd]
      constructor
      · intro h; cases h
      · rintro ⟨h, _⟩; omega
    rw [if_neg hd]
    constructor
    · intro h
      rcases h1 : field a ms with _ | x'
      · rw [h1] at h; simp at h
      rcases h2 : field b ms with _ | y'
      · rw [h1, h2] at h; simp at h
      rw [h1, h2] at h; simp at h
      obtain ⟨rfl, rfl⟩ := h
      refine ⟨by omega, .inr ⟨ms, rfl, ?_⟩⟩
      intro f hf
      simp at hf
      rcases hf with rfl | rfl
      · exact (field_iff _ _ _).mp h1
      · exact (field_iff _ _ _).mp h2
    · rintro ⟨_, h | ⟨ms', h, hf⟩⟩
      · cases h
      · cases h
        rw [(field_iff a ms x).mpr (hf (a, x) (by simp)), (field_iff b ms y).mpr (hf (b, y) (by simp))]
        rfl

theorem fields3_iff (d : Nat) (a b c : Str) (j x y z : Json) : fields d [a, b, c] j = some [x, y, z] ↔ 2 ≤ d ∧ Struct j [(a, x), (b, y), (c, z)] := by
  cases j with
  | null => simp [fields, Struct]
  | other => simp [fields, Struct]
  | str s => simp [fields, Struct]
  | arr l =>
    simp only [fields, Struct, List.length_cons, List.length_nil]
    by_cases hd : d - 1 = 0
    · rw [if_pos hd]
      constructor
      · intro h; cases h
      · rintro ⟨h, _⟩; omega
    rw [if_neg hd]
    constructor
    · intro h
      split at h
      · cases h; exact ⟨by omega, .inl rfl⟩
      · cases h
    · rintro ⟨_, h | ⟨ms, h, _⟩⟩
      · cases h; rfl
      · cases h
  | obj ms =>
    simp only [fields, Struct, List.mapM_cons, List.mapM_nil]
    by_cases hd : d - 1 = 0
    · rw [if_pos hd]
      constructor
      · intro h; cases h
      · rintro ⟨h, _⟩; omega
    rw [if_neg hd]
    constructor
    · intro h
      rcases h1 : field a ms with _ | x'
      · rw [h1] at h; simp at h
      rcases h2 : field b ms with _ | y'
      · rw [h1, h2] at h; simp at h
      rcases h3 : field c ms with _ | z'
      · rw [h1, h2, h3] at h; simp at h
      rw [h1, h2, h3] at h; simp at h
      obtain ⟨rfl, rfl, rfl⟩ := h
      refine ⟨by omega, .inr ⟨ms, rfl, ?_⟩⟩
      intro f hf
      simp at hf
      rcases hf with rfl | rfl | rfl
      · exact (field_iff _ _ _).mp h1
      · exact (field_iff _ _ _).mp h2
      · exact (field_iff _ _ _).mp h3
    · rintro ⟨_, h | ⟨ms', h, hf⟩⟩
      · cases h
      · cases h
        rw [(field_iff a ms x).mpr (hf (a, x) (by simp)), (field_iff b ms y).mpr (hf (b, y) (by simp)), (field_iff c ms z).mpr (hf (c, z) (by simp))]
        rfl

theorem variant_some {d : Nat} {j : Json} {n : Str} {c : Json} (h : variant d j = some (n, c)) : j = .obj [(n, c)] := by
  unfold variant at h
  split at h
  · split at h
    · cases h
    · cases h; rfl
  · cases h

theorem two_elems {d : Nat} {jx jy : Json} {α : Type} (k : Element → Element → α) {r : α}
    (h : (do let x ← readElement d jx; let y ← readElement d jy; return k x y : Option α) = some r) :
    ∃ x y, Elem (d - 1) jx x ∧ Elem (d - 1) jy y ∧ r = k x y := by
  rcases h1 : readElement d jx with _ | x
  · rw [h1] at h; cases h
  rcases h2 : readElement d jy with _ | y
  · rw [h1, h2] at h; cases h
  rw [h1, h2] at h; cases h
  exact ⟨x, y, (readElement_iff _ _ _).mp h1, (readElement_iff _ _ _).mp h2, rfl⟩

theorem readEntry_iff (d : Nat) (j : Json) (e : Entry) : readEntry d j = some e ↔ Ent (d - 1) j e := by
  have lift : ∀ {k : Nat} {jx : Json} {x : Element}, d - 1 = k + 2 → Elem k jx x → readElement (d - 2) jx = some x := by
    intro k jx x e h
    apply (readElement_iff _ _ _).mpr
    rw [show d - 2 - 1 = k by omega]; exact h
  constructor
  · intro h
    unfold readEntry at h
    split at h
    · cases h
    · rename_i name content hv
      rw [variant_some hv]
      split at h
      · rename_i hn
        split at h
        · rename_i f s r hf
          rcases h1 : readElement (d - 2) f with _ | x
          · rw [h1] at h; cases h
          rcases h2 : readElement (d - 2) s with _ | y
          · rw [h1, h2] at h; cases h
          rcases h3 : readElement (d - 2) r with _ | z
          · rw [h1, h2, h3] at h; cases h
          rw [h1, h2, h3] at h; cases h
          have h1 := (readElement_iff _ _ _).mp h1
          rw [hn, show d - 1 = d - 2 - 1 + 2 by have := h1.1; omega]
          exact .role h1 ((readElement_iff _ _ _).mp h2) ((readElement_iff _ _ _).mp h3) ((fields3_iff _ _ _ _ _ _ _ _).mp hf).2
        · cases h
      · split at h
        · rename_i hn
          split at h
          · rename_i f s hf
            obtain ⟨x, y, h1, h2, rfl⟩ := two_elems Entry.ext h
            rw [hn, show d - 1 = d - 2 - 1 + 2 by have := h1.1; omega]
            exact .ext h1 h2 ((fields2_iff _ _ _ _ _ _).mp hf).2
          · cases h
        · split at h
          · rename_i hn
            split at h
            · rename_i f s hf
              obtain ⟨x, y, h1, h2, rfl⟩ := two_elems Entry.notExt h
              rw [hn, show d - 1 = d - 2 - 1 + 2 by have := h1.1; omega]
              exact .notExt h1 h2 ((fields2_iff _ _ _ _ _ _).mp hf).2
            · cases h
          · cases h
  · intro h
    generalize hm : d - 1 = m at h
    cases h with
    | role h1 h2 h3 h4 =>
      rw [readEntry, variant, if_neg (by omega)]
      simp only []
      rw [if_pos trivial, (fields3_iff _ _ _ _ _ _ _ _).mpr ⟨by omega, h4⟩]
      simp only []
      rw [lift hm h1, lift hm h2, lift hm h3]
      rfl
    | ext h1 h2 h4 =>
      rw [readEntry, variant, if_neg (by omega)]
      simp only []
      rw [if_neg (by decide), if_pos trivial, (fields2_iff _ _ _ _ _ _).mpr ⟨by omega, h4⟩]
      simp only []
      rw [lift hm h1, lift hm h2]
      rfl
    | notExt h1 h2 h4 =>
      rw [readEntry, variant, if_neg (by omega)]
      simp only []
      rw [if_neg (by decide), if_neg (by decide), if_pos trivial, (fields2_iff _ _ _ _ _ _).mpr ⟨by omega, h4⟩]
      simp only []
      rw [lift hm h1, lift hm h2]
      rfl

theorem mapM_iff {α β : Type} {f : α → Option β} {R : α → β → Prop} (hR : ∀ a b, f a = some b ↔ R a b) :
    ∀ (as : List α) (bs : List β), as.mapM f = some bs ↔ Each R as bs
  | [], bs => by
    cases bs <;> simp [Each]
  | a :: as, bs => by
    rw [List.mapM_cons]
    constructor
    · intro h
      rcases h1 : f a with _ | b
      · rw [h1] at h; simp at h
      rcases h2 : as.mapM f with _ | bs'
      · rw [h1, h2] at h; simp at h
      rw [h1, h2] at h; simp at h; subst h
      obtain ⟨hl, hz⟩ := (mapM_iff hR as bs').mp h2
      refine ⟨by simp [hl], ?_⟩
      intro p hp
      rw [List.zip_cons_cons] at hp
      rcases List.mem_cons.mp hp with rfl | hp
      · exact (hR _ _).mp h1
      · exact hz p hp
    · rintro ⟨hl, hz⟩
      cases bs with
      | nil => simp at hl
      | cons b bs =>
        rw [List.zip_cons_cons] at hz
        have h1 := (hR a b).mpr (hz (a, b) (by simp))
        have h2 := (mapM_iff hR as bs).mpr ⟨by simpa using hl, fun p hp => hz p (by simp [hp])⟩
        rw [h1, h2]; rfl

theorem readNetwork_iff (d : Nat) (j : Json) (n : Network) :
    readNetwork d j = some n ↔ 2 ≤ d ∧ ∃ js es, j = .arr js ∧ Each (Ent (d - 2)) js es ∧ ∀ e, e ∈ n ↔ e ∈ es := by
  have hE : ∀ js es, js.mapM (readEntry (d - 1)) = some es ↔ Each (Ent (d - 2)) js es := mapM_iff (readEntry_iff (d - 1))
  unfold readNetwork
  split
  · rename_i items
    by_cases hd : d - 1 = 0
    · rw [if_pos hd]
      constructor
      · intro h; cases h
      · rintro ⟨h, _⟩; omega
    rw [if_neg hd]
    constructor
    · intro h
      rcases h1 : items.mapM (readEntry (d - 1)) with _ | es
      · rw [h1] at h; cases h
      · rw [h1] at h; cases h
        exact ⟨by omega, items, es, rfl, (hE _ _).mp h1, fun e => BSet.mem_ofList⟩
    · rintro ⟨_, js, es, e1, h1, h2⟩
      cases e1
      rw [(hE _ _).mpr h1]
      have : BSet.ofList es = n := BSet.ext (by intro e; rw [BSet.mem_ofList, h2])
      rw [← this]; rfl
  · rename_i hne
    constructor
    · intro h; cases h
    · rintro ⟨_, js, es, e1, _⟩; exact (hne _ e1).elim

mutual
theorem val_of_read : ∀ (j : Json) (d : Nat) (v : Value), readValue d j = some v → Val (d - 1) j v
  | .null, d, v, h => by simp [readValue] at h
  | .other, d, v, h => by simp [readValue] at h
  | .str _, d, v, h => by simp [readValue] at h
  | .arr _, d, v, h => by simp [readValue] at h
  | .obj [], d, v, h => by simp [readValue] at h
  | .obj (_ :: _ :: _), d, v, h => by simp [readValue] at h
  | .obj [(name, .arr items)], d, v, h => by
    rw [readValue.eq_def] at h
    simp only [] at h
    split at h
    · cases h
    rename_i hd
    split at h
    · rename_i hn
      rcases h1 : readElement (d - 1) (.arr items) with _ | e
      · rw [h1] at h; cases h
      · rw [h1] at h; cases h; rw [hn, show d - 1 = d - 1 - 1 + 1 by omega]; exact .element ((readElement_iff _ _ _).mp h1)
    · split at h
      · rename_i hn
        rcases h1 : readNetwork (d - 1) (.arr items) with _ | n
        · rw [h1] at h; cases h
        · rw [h1] at h; cases h
          obtain ⟨h2d, js, es, e1, h2, h3⟩ := (readNetwork_iff _ _ _).mp h1
          cases e1
          rw [hn, show d - 1 = d - 1 - 2 + 2 by omega]; exact .network h2 h3
      · split at h
        · rename_i hn
          split at h
          · cases h
          rename_i hd2
          rcases h1 : readValues (d - 2) items with _ | vs
          · rw [h1] at h; cases h
          · rw [h1] at h; cases h
            rw [hn, show d - 1 = d - 2 - 1 + 2 by omega]; exact .quote (vals_of_read items (d - 2) vs h1)
        · cases h
  | .obj [(name, .null)], d, v, h => by simp [readValue, readElement, readNetwork] at h
  | .obj [(name, .other)], d, v, h => by simp [readValue, readElement, readNetwork] at h
  | .obj [(name, .str _)], d, v, h => by simp [readValue, readElement, readNetwork] at h
  | .obj [(name, .obj _)], d, v, h => by simp [readValue, readElement, readNetwork] at h
theorem vals_of_read : ∀ (js : List Json) (d : Nat) (vs : List Value), readValues d js = some vs → Vals (d - 1) js vs
  | [], d, vs, h => by simp [readValues] at h; subst h; exact .nil
  | j :: js, d, vs, h => by
    rw [readValues.eq_def] at h
    simp only [] at h
    rcases h1 : readValue d j with _ | v
    · rw [h1] at h; cases h
    rcases h2 : readValues d js with _ | vs'
    · rw [h1, h2] at h; cases h
    rw [h1, h2] at h; cases h
    exact .cons (val_of_read j d v h1) (vals_of_read js d vs' h2)
end

mutual
theorem read_of_val : ∀ {n : Nat} {j : Json} {v : Value}, Val n j v → readValue (n + 1) j = some v
  | _, _, _, .element (n := n) (j := j) (e := e) h => by
    have h' := (readElement_iff (n + 1) j e).mpr h
    rw [readValue.eq_def]; simp only []
    rw [if_neg (by omega), if_pos trivial, show n + 1 + 1 - 1 = n + 1 by omega, h']; rfl
  | _, _, _, .network (n := n) (js := js) (net := net) h1 h2 => by
    have h' := (readNetwork_iff (n + 2) (.arr js) net).mpr ⟨by omega, _, _, rfl, h1, h2⟩
    rw [readValue.eq_def]; simp only []
    rw [if_neg (by omega), if_neg (by decide), if_pos trivial, show n + 2 + 1 - 1 = n + 2 by omega, h']; rfl
  | _, _, _, .quote (n := n) h => by
    have := read_of_vals h
    rw [readValue.eq_def]; simp only []
    rw [if_neg (by omega), if_neg (by decide), if_neg (by decide), if_pos trivial, if_neg (by omega), show n + 2 + 1 - 2 = n + 1 by omega, this]; rfl
theorem read_of_vals : ∀ {n : Nat} {js : List Json} {vs : List Value}, Vals n js vs → readValues (n + 1) js = some vs
  | _, _, _, .nil => by rw [readValues.eq_def]
  | _, _, _, .cons h hs => by
    rw [readValues.eq_def]; simp only []
    rw [read_of_val h, read_of_vals hs]; rfl
end

theorem readValue_iff (n : Nat) (j : Json) (v : Value) : readValue (n + 1) j = some v ↔ Val n j v := ⟨val_of_read j (n + 1) v, read_of_val⟩

theorem readCall_iff (d : Nat) (j : Json) (c : Call) : readCall d j = some c ↔ CallJson (d - 1) j c := by
  constructor
  · intro h
    unfold readCall at h
    split at h
    · rename_i n items hf
      split at h
      · cases h
      rename_i hd
      rcases h1 : readElement (d - 1) n with _ | x
      · rw [h1] at h; cases h
      rcases h2 : readValues (d - 2) items with _ | vs
      · rw [h1, h2] at h; cases h
      rw [h1, h2] at h; cases h
      have h1 := (readElement_iff _ _ _).mp h1
      rw [show d - 1 - 1 = d - 2 - 1 + 1 by omega] at h1
      rw [show d - 1 = d - 2 - 1 + 2 by omega]
      exact .mk h1 (vals_of_read _ _ _ h2) ((fields2_iff _ _ _ _ _ _).mp hf).2
    · cases h
  · intro h
    generalize hm : d - 1 = m at h
    cases h with
    | @mk n jn js j name args h1 h2 h3 =>
      have e1 : readElement (d - 1) jn = some name := by
        apply (readElement_iff _ _ _).mpr
        rw [show d - 1 - 1 = n + 1 by omega]; exact h1
      have e2 := read_of_vals h2
      rw [readCall, (fields2_iff _ _ _ _ _ _).mpr ⟨by omega, h3⟩]
      simp only []
      rw [if_neg (by omega), e1, show d - 2 = n + 1 by omega, e2]
      rfl

end Serde
end Verif
