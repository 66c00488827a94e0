import Verif.Model.Regex
/-!
# Correctness of the longest-prefix matcher
-/
namespace Verif
namespace Re

theorem not_matches_void (s : Str) : ¬ Matches void s := by intro h; cases h

theorem matches_eps {s : Str} : Matches eps s ↔ s = [] := by
  constructor
  · intro h; cases h; rfl
  · rintro rfl; exact .eps

theorem matches_cls {p : Char → Bool} {s : Str} : Matches (cls p) s ↔ ∃ c, s = [c] ∧ p c = true := by
  constructor
  · intro h; cases h with | cls h => exact ⟨_, rfl, h⟩
  · rintro ⟨c, rfl, h⟩; exact .cls h

theorem matches_cat {a b : Re} {s : Str} : Matches (cat a b) s ↔ ∃ x y, s = x ++ y ∧ Matches a x ∧ Matches b y := by
  constructor
  · intro h; cases h with | cat h1 h2 => exact ⟨_, _, rfl, h1, h2⟩
  · rintro ⟨x, y, rfl, h1, h2⟩; exact .cat h1 h2

theorem matches_alt {a b : Re} {s : Str} : Matches (alt a b) s ↔ Matches a s ∨ Matches b s := by
  constructor
  · intro h; cases h with
    | altL h => exact .inl h
    | altR h => exact .inr h
  · rintro (h | h)
    · exact .altL h
    · exact .altR h

theorem matches_chr {c : Char} {s : Str} : Matches (chr c) s ↔ s = [c] := by
  unfold chr; rw [matches_cls]
  constructor
  · rintro ⟨d, rfl, h⟩; simp at h; rw [h]
  · rintro rfl; exact ⟨c, rfl, by simp⟩

theorem matches_opt {a : Re} {s : Str} : Matches (opt a) s ↔ Matches a s ∨ s = [] := by
  unfold opt; rw [matches_alt, matches_eps]

theorem matches_star_cls {p : Char → Bool} {s : Str} : Matches (star (cls p)) s ↔ ∀ c ∈ s, p c = true := by
  constructor
  · intro h
    generalize hr : star (cls p) = r at h
    induction h with
    | starNil => simp
    | @starCons a s t h1 h2 ih1 ih2 =>
      cases hr
      rw [matches_cls] at h1
      obtain ⟨c, rfl, hc⟩ := h1
      intro d hd
      simp only [List.cons_append, List.nil_append, List.mem_cons] at hd
      rcases hd with rfl | hd
      · exact hc
      · exact ih2 rfl d hd
    | _ => cases hr
  · intro h
    induction s with
    | nil => exact .starNil
    | cons c s ih =>
      exact .starCons (s := [c]) (.cls (h c List.mem_cons_self)) (ih (fun d hd => h d (List.mem_cons_of_mem _ hd)))

theorem matches_plus_cls {p : Char → Bool} {s : Str} : Matches (plus (cls p)) s ↔ s ≠ [] ∧ ∀ c ∈ s, p c = true := by
  unfold plus
  rw [matches_cat]
  constructor
  · rintro ⟨x, y, rfl, h1, h2⟩
    rw [matches_cls] at h1
    obtain ⟨c, rfl, hc⟩ := h1
    rw [matches_star_cls] at h2
    simp only [List.cons_append, List.nil_append, List.mem_cons]
    refine ⟨by simp, ?_⟩
    rintro d (rfl | hd)
    · exact hc
    · exact h2 d hd
  · rintro ⟨h, h'⟩
    cases s with
    | nil => exact absurd rfl h
    | cons c s =>
      exact ⟨[c], s, rfl, .cls (h' c List.mem_cons_self), matches_star_cls.mpr (fun d hd => h' d (List.mem_cons_of_mem _ hd))⟩

theorem nullable_iff (r : Re) : r.nullable = true ↔ Matches r [] := by
  induction r with
  | void => simp [nullable, not_matches_void]
  | eps => simp [nullable, matches_eps]
  | cls p => simp [nullable, matches_cls]
  | cat a b iha ihb =>
    simp only [nullable, Bool.and_eq_true, iha, ihb, matches_cat]
    constructor
    · rintro ⟨h1, h2⟩; exact ⟨[], [], rfl, h1, h2⟩
    · rintro ⟨x, y, h, h1, h2⟩
      have hx := List.append_eq_nil_iff.mp h.symm
      rw [hx.1] at h1; rw [hx.2] at h2; exact ⟨h1, h2⟩
  | alt a b iha ihb => simp only [nullable, Bool.or_eq_true, iha, ihb, matches_alt]
  | star a => simp [nullable, Matches.starNil]

theorem matches_mkCat {a b : Re} {s : Str} : Matches (mkCat a b) s ↔ Matches (cat a b) s := by
  unfold mkCat
  split
  · rw [matches_cat]
    constructor
    · intro h; exact absurd h (not_matches_void _)
    · rintro ⟨x, y, _, h, _⟩; exact absurd h (not_matches_void _)
  · rw [matches_cat]
    constructor
    · intro h; exact ⟨[], s, rfl, .eps, h⟩
    · rintro ⟨x, y, rfl, h, h'⟩
      rw [matches_eps] at h; subst h; exact h'
  · rfl

theorem matches_mkAlt {a b : Re} {s : Str} : Matches (mkAlt a b) s ↔ Matches (alt a b) s := by
  unfold mkAlt
  split
  · rw [matches_alt]
    exact ⟨.inr, fun h => h.elim (fun h => absurd h (not_matches_void _)) id⟩
  · rw [matches_alt]
    exact ⟨.inl, fun h => h.elim id (fun h => absurd h (not_matches_void _))⟩
  · rfl

/-- A nonempty match of a star begins with a nonempty match of its body. -/
theorem star_cons {a : Re} {c : Char} {s : Str} (h : Matches (star a) (c :: s)) :
    ∃ x y, s = x ++ y ∧ Matches a (c :: x) ∧ Matches (star a) y := by
  generalize hr : star a = r at h
  generalize hw : c :: s = w at h
  induction h with
  | starNil => cases hw
  | @starCons a' u t h1 h2 ih1 ih2 =>
    cases hr
    cases u with
    | nil => exact ih2 rfl hw
    | cons d u =>
      simp only [List.cons_append, List.cons.injEq] at hw
      obtain ⟨rfl, rfl⟩ := hw
      exact ⟨u, t, rfl, h1, h2⟩
  | _ => cases hr

theorem deriv_iff (c : Char) (r : Re) : ∀ s, Matches (deriv c r) s ↔ Matches r (c :: s) := by
  induction r with
  | void => intro s; simp [deriv, not_matches_void]
  | eps => intro s; simp [deriv, not_matches_void, matches_eps]
  | cls p =>
    intro s
    simp only [deriv, matches_cls]
    split
    · rename_i h
      rw [matches_eps]
      constructor
      · rintro rfl; exact ⟨c, rfl, h⟩
      · rintro ⟨d, h, _⟩; cases h; rfl
    · rename_i h
      constructor
      · intro h'; exact absurd h' (not_matches_void _)
      · rintro ⟨d, h1, h2⟩; cases h1; exact absurd h2 h
  | cat a b iha ihb =>
    intro s
    have hcat : Matches (cat (deriv c a) b) s ↔ ∃ x y, s = x ++ y ∧ Matches a (c :: x) ∧ Matches b y := by
      rw [matches_cat]; simp only [iha]
    simp only [deriv]
    split
    · rename_i hn
      rw [matches_mkAlt, matches_alt, matches_mkCat, hcat, ihb, matches_cat]
      constructor
      · rintro (⟨x, y, rfl, h1, h2⟩ | h)
        · exact ⟨c :: x, y, rfl, h1, h2⟩
        · exact ⟨[], c :: s, rfl, (nullable_iff a).mp hn, h⟩
      · rintro ⟨x, y, h, h1, h2⟩
        cases x with
        | nil => simp at h; subst h; exact .inr h2
        | cons d x =>
          simp only [List.cons_append, List.cons.injEq] at h
          obtain ⟨rfl, rfl⟩ := h
          exact .inl ⟨x, y, rfl, h1, h2⟩
    · rename_i hn
      rw [matches_mkCat, hcat, matches_cat]
      constructor
      · rintro ⟨x, y, rfl, h1, h2⟩; exact ⟨c :: x, y, rfl, h1, h2⟩
      · rintro ⟨x, y, h, h1, h2⟩
        cases x with
        | nil => exact absurd ((nullable_iff a).mpr h1) hn
        | cons d x =>
          simp only [List.cons_append, List.cons.injEq] at h
          obtain ⟨rfl, rfl⟩ := h
          exact ⟨x, y, rfl, h1, h2⟩
  | alt a b iha ihb => intro s; simp only [deriv, matches_mkAlt, matches_alt, iha, ihb]
  | star a iha =>
    intro s
    simp only [deriv, matches_mkCat, matches_cat, iha]
    constructor
    · rintro ⟨x, y, rfl, h1, h2⟩; exact .starCons (s := c :: x) h1 h2
    · exact star_cons

/-- `longest` finds the length of the longest matching prefix. -/
theorem longest_spec (s : Str) : ∀ r : Re,
    match longest r s with
    | some n => n ≤ s.length ∧ Matches r (s.take n) ∧ ∀ m, m ≤ s.length → Matches r (s.take m) → m ≤ n
    | none => ∀ m, m ≤ s.length → ¬ Matches r (s.take m) := by
  induction s with
  | nil =>
    intro r
    simp only [longest]
    split
    · rename_i n h
      split at h
      · cases h
        rename_i hn
        exact ⟨Nat.le_refl _, (nullable_iff r).mp hn, fun m hm _ => hm⟩
      · cases h
    · rename_i h
      split at h
      · cases h
      · rename_i hn
        intro m _ hm
        simp at hm
        exact hn ((nullable_iff r).mpr hm)
  | cons c cs ih =>
    intro r
    have hd := ih (deriv c r)
    simp only [longest]
    cases h : longest (deriv c r) cs with
    | some n =>
      rw [h] at hd
      obtain ⟨h1, h2, h3⟩ := hd
      refine ⟨by simpa using h1, (deriv_iff c r _).mp h2, ?_⟩
      intro m hm hmm
      cases m with
      | zero => omega
      | succ m =>
        have := h3 m (by simpa using hm) ((deriv_iff c r _).mpr hmm)
        omega
    | none =>
      rw [h] at hd
      have hno : ∀ m, m + 1 ≤ (c :: cs).length → ¬ Matches r ((c :: cs).take (m + 1)) := by
        intro m hm hmm
        exact hd m (by simpa using hm) ((deriv_iff c r _).mpr hmm)
      by_cases hn : nullable r = true
      · simp only [hn, if_true]
        refine ⟨by simp, (nullable_iff r).mp hn, ?_⟩
        intro m hm hmm
        cases m with
        | zero => omega
        | succ m => exact absurd hmm (hno m hm)
      · simp only [Bool.not_eq_true] at hn
        simp only [hn]
        intro m hm hmm
        cases m with
        | zero => exact absurd ((nullable_iff r).mpr hmm) (by simp [hn])
        | succ m => exact hno m hm hmm

end Re
end Verif
