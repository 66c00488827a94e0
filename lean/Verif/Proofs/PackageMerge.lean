import Verif.Spec.PackageMerge
/-! Helper lemmas for C96. -/
namespace Verif
namespace Pkg
open Spec

theorem digit_mem {c : Char} (h : 0x30 ≤ c.toNat ∧ c.toNat ≤ 0x39) : (c.toNat - 0x30).digitChar = c := by
  have : ∀ n, n < 10 → (Nat.digitChar n).toNat = n + 0x30 := by decide
  apply Char.toNat_inj.mp
  rw [this _ (by omega)]; omega

theorem toDigits_value (k : Str) (hk : k ≠ []) (hh : k.head? ≠ some '0')
    (hd : ∀ c ∈ k, 0x30 ≤ c.toNat ∧ c.toNat ≤ 0x39) :
    Nat.toDigits 10 (k.foldl (fun n c => 10 * n + (c.toNat - 0x30)) 0) = k ∧
      0 < k.foldl (fun n c => 10 * n + (c.toNat - 0x30)) 0 := by
  induction hlen : k.length generalizing k with
  | zero => exact absurd (List.length_eq_zero_iff.mp hlen) hk
  | succ m ih =>
    rcases List.eq_nil_or_concat k with rfl | ⟨pre, c, rfl⟩
    · exact absurd rfl hk
    · rw [List.concat_eq_append] at *
      have hc := hd c (by simp)
      rw [List.foldl_append]
      simp only [List.foldl_cons, List.foldl_nil]
      by_cases hp : pre = []
      · subst hp
        simp only [List.foldl_nil, List.nil_append]
        have h0 : c ≠ '0' := by simpa using hh
        have hpos : c.toNat ≠ 0x30 := fun h => h0 (Char.toNat_inj.mp h)
        constructor
        · rw [Nat.toDigits_of_lt_base (by omega)]
          simp [digit_mem hc]
        · omega
      · have ⟨e, p⟩ := ih pre hp (by cases pre <;> simp_all) (fun x hx => hd x (by simp [hx])) (by simpa using hlen)
        constructor
        · rw [← Nat.toDigits_append_toDigits (by omega) p (by omega), e, Nat.toDigits_of_lt_base (by omega), digit_mem hc]
        · omega

theorem head_toDigits (n : Nat) (h : 0 < n) : (Nat.toDigits 10 n).head? ≠ some '0' := by
  induction n using Nat.strongRecOn with
  | _ n ih =>
    rw [Nat.toDigits_eq_if (by omega)]
    split
    · have : ∀ m, m < 10 → 0 < m → Nat.digitChar m ≠ '0' := by decide
      simpa using this n (by omega) h
    · have := ih (n / 10) (by omega) (by omega)
      cases hx : Nat.toDigits 10 (n / 10) with
      | nil => exact absurd hx Nat.toDigits_ne_nil
      | cons a l => simpa [hx] using this

theorem isDigit_range {c : Char} (h : c.isDigit) : 0x30 ≤ c.toNat ∧ c.toNat ≤ 0x39 := by
  simp only [Char.isDigit, Bool.and_eq_true, decide_eq_true_eq] at h
  exact ⟨h.1, h.2⟩

theorem decimal_iff (k : Str) (n : Nat) : decimal k = some n ↔ k = Nat.toDigits 10 n := by
  unfold decimal
  by_cases h0 : k = lit "0"
  · subst h0
    simp only [if_true, Option.some.injEq]
    constructor
    · rintro rfl; decide
    · intro h
      have := congrArg (fun l => Nat.ofDigitChars 10 l 0) h
      simp only [Nat.ofDigitChars_ten_toDigits] at this
      rw [← this]; decide
  · rw [if_neg h0]
    constructor
    · intro h
      split at h
      · rename_i hc
        cases h
        refine (toDigits_value k hc.1 hc.2.1 ?_).1.symm
        simpa [List.all_eq_true] using hc.2.2
      · cases h
    · rintro rfl
      have hn : 0 < n := by
        rcases Nat.eq_zero_or_pos n with rfl | h
        · exact absurd (by decide) h0
        · exact h
      have hd : ∀ c ∈ Nat.toDigits 10 n, 0x30 ≤ c.toNat ∧ c.toNat ≤ 0x39 := fun c hc =>
        isDigit_range (Nat.isDigit_of_mem_toDigits (by omega) (by omega) hc)
      have hcond : Nat.toDigits 10 n ≠ [] ∧ (Nat.toDigits 10 n).head? ≠ some '0' ∧
          (Nat.toDigits 10 n).all (fun c => 0x30 ≤ c.toNat && c.toNat ≤ 0x39) = true :=
        ⟨Nat.toDigits_ne_nil, head_toDigits n hn, by simpa [List.all_eq_true] using hd⟩
      rw [if_pos hcond]
      congr 1
      have := (toDigits_value _ hcond.1 hcond.2.1 hd).1
      have e := congrArg (fun l => Nat.ofDigitChars 10 l 0) this
      simpa only [Nat.ofDigitChars_ten_toDigits] using e

theorem index_iff (k : Str) (n : Nat) : index k = some n ↔ IndexName k n := by
  unfold index IndexName
  cases h : decimal k with
  | none =>
    simp only [reduceCtorEq, false_iff, not_and]
    intro _ hk
    rw [(decimal_iff k n).mpr hk] at h; cases h
  | some m =>
    have hm := (decimal_iff k m).mp h
    by_cases hlt : m < 2 ^ 32 - 1
    · simp only [if_pos hlt, Option.some.injEq]
      constructor
      · rintro rfl; exact ⟨hlt, hm⟩
      · rintro ⟨_, hk⟩
        have := (decimal_iff k n).mpr hk
        rw [h] at this; exact Option.some.inj this
    · simp only [if_neg hlt, reduceCtorEq, false_iff, not_and]
      intro hn hk
      have := (decimal_iff k n).mpr hk
      rw [h] at this; cases this; exact hlt hn

theorem index_inj {k k' : Str} {n : Nat} (h : index k = some n) (h' : index k' = some n) : k = k' := by
  rw [index_iff] at h h'; rw [h.2, h'.2]

/-! ## Order -/

def rank (p : Str × JVal) : Nat := (index p.1).getD 0

theorem place_perm (p : Str × JVal) (o : Obj) : (place p o).Perm (p :: o) := by
  induction o with
  | nil => exact .refl _
  | cons q o ih =>
    simp only [place]
    split
    · exact .refl _
    · exact (ih.cons q).trans (.swap p q o)

theorem sort_perm (o : Obj) : (o.foldr place []).Perm o := by
  induction o with
  | nil => exact .refl _
  | cons p o ih => exact (place_perm _ _).trans (ih.cons p)

theorem enumerate_perm (o : Obj) : (enumerate o).Perm o := by
  refine ((sort_perm _).append_right _).trans ?_
  have := List.filter_append_perm (fun p : Str × JVal => (index p.1).isSome) o
  simpa [enumerate] using this

theorem place_sorted (p : Str × JVal) (o : Obj) (h : o.Pairwise (fun a b => rank a ≤ rank b)) :
    (place p o).Pairwise (fun a b => rank a ≤ rank b) := by
  induction o with
  | nil => simp [place]
  | cons q o ih =>
    have hq := List.pairwise_cons.mp h
    simp only [place]
    split
    · rename_i hle
      refine List.pairwise_cons.mpr ⟨?_, h⟩
      intro x hx
      rcases List.mem_cons.mp hx with rfl | hx
      · exact hle
      · exact Nat.le_trans hle (hq.1 x hx)
    · rename_i hle
      refine List.pairwise_cons.mpr ⟨?_, ih hq.2⟩
      intro x hx
      rcases List.mem_cons.mp ((place_perm p o).mem_iff.mp hx) with rfl | hx
      · exact Nat.le_of_lt (Nat.lt_of_not_le hle)
      · exact hq.1 x hx

theorem sort_sorted (o : Obj) : (o.foldr place []).Pairwise (fun a b => rank a ≤ rank b) := by
  induction o with
  | nil => exact .nil
  | cons p o ih => exact place_sorted p _ ih

theorem enumerate_inOrder (o : Obj) (hn : (o.map Prod.fst).Nodup) : InOrder (enumerate o) := by
  refine ⟨_, _, rfl, ?_, ((o.filter fun p => (index p.1).isSome).foldr place []).map rank, ?_, ?_, ?_⟩
  · intro p hp n hi
    have := (List.mem_filter.mp hp).2
    rw [(index_iff _ _).mpr hi] at this; cases this
  · rw [List.pairwise_map]
    have hs := sort_sorted (o.filter fun p => (index p.1).isSome)
    have hp := sort_perm (o.filter fun p => (index p.1).isSome)
    have hnd : ((o.filter fun p => (index p.1).isSome).map Prod.fst).Nodup :=
      hn.sublist (List.filter_sublist.map _)
    have hnd' := (hp.map Prod.fst).nodup_iff.mpr hnd
    have hboth := List.pairwise_map.mp hnd'
    refine (hs.and hboth).imp_of_mem ?_
    rintro a b ha hb ⟨hle, hne⟩
    have hia := (List.mem_filter.mp (hp.mem_iff.mp ha)).2
    have hib := (List.mem_filter.mp (hp.mem_iff.mp hb)).2
    obtain ⟨na, ea⟩ := Option.isSome_iff_exists.mp hia
    obtain ⟨nb, eb⟩ := Option.isSome_iff_exists.mp hib
    simp only [rank, ea, eb, Option.getD_some] at hle ⊢
    rcases Nat.lt_or_eq_of_le hle with h | h
    · exact h
    · subst h; exact absurd (index_inj ea eb) hne
  · rw [List.map_map]
    refine List.map_congr_left fun p hp => ?_
    have hi := (List.mem_filter.mp ((sort_perm _).mem_iff.mp hp)).2
    obtain ⟨n, e⟩ := Option.isSome_iff_exists.mp hi
    simp only [Function.comp, rank, e, Option.getD_some]
    exact ((index_iff _ _).mp e).2.symm
  · intro n hn
    obtain ⟨p, hp, rfl⟩ := List.mem_map.mp hn
    have hi := (List.mem_filter.mp ((sort_perm _).mem_iff.mp hp)).2
    obtain ⟨n, e⟩ := Option.isSome_iff_exists.mp hi
    simp only [rank, e, Option.getD_some]
    exact ((index_iff _ _).mp e).1

theorem sort_of_sorted (o : Obj) (h : o.Pairwise (fun a b => rank a < rank b)) : o.foldr place [] = o := by
  induction o with
  | nil => rfl
  | cons p o ih =>
    have hp := List.pairwise_cons.mp h
    rw [List.foldr_cons, ih hp.2]
    cases o with
    | nil => rfl
    | cons q o => exact if_pos (Nat.le_of_lt (hp.1 q (by simp)))

theorem enumerate_of_inOrder {o : Obj} (h : InOrder o) : enumerate o = o := by
  obtain ⟨xs, ys, rfl, hy, ns, hs, hm, hb⟩ := h
  have hx : ∀ p ∈ xs, (index p.1).isSome := by
    intro p hp
    have : p.1 ∈ ns.map (Nat.toDigits 10) := hm ▸ List.mem_map_of_mem hp
    obtain ⟨n, hn, e⟩ := List.mem_map.mp this
    rw [(index_iff p.1 n).mpr ⟨hb n hn, e.symm⟩]; rfl
  have hy' : ∀ p ∈ ys, index p.1 = none := by
    intro p hp
    cases e : index p.1 with
    | none => rfl
    | some n => exact absurd ((index_iff _ _).mp e) (hy p hp n)
  have hr : xs.map rank = ns := by
    have : xs.map rank = (xs.map Prod.fst).map (fun k => (index k).getD 0) := by simp [rank, List.map_map, Function.comp_def]
    rw [this, ← hm, List.map_map]
    conv => rhs; rw [← List.map_id ns]
    refine List.map_congr_left fun n hn => ?_
    simp only [Function.comp, id]
    rw [(index_iff _ n).mpr ⟨hb n hn, rfl⟩]; rfl
  have f1 : (xs ++ ys).filter (fun p => (index p.1).isSome) = xs := by
    rw [List.filter_append, List.filter_eq_self.mpr hx, List.filter_eq_nil_iff.mpr (fun p hp => by simp [hy' p hp]), List.append_nil]
  have f2 : (xs ++ ys).filter (fun p => (index p.1).isNone) = ys := by
    rw [List.filter_append, List.filter_eq_nil_iff.mpr (fun p hp => by have := hx p hp; cases e : index p.1 <;> simp_all), List.filter_eq_self.mpr (fun p hp => by simp [hy' p hp]),
      List.nil_append]
  unfold enumerate
  rw [f1, f2, sort_of_sorted]
  rw [← List.pairwise_map (f := rank) (R := (· < ·)), hr]; exact hs

/-! ## Assigning -/

theorem lookup_none_iff {o : Obj} {k : Str} : o.lookup k = none ↔ k ∉ o.map Prod.fst := by
  induction o with
  | nil => simp
  | cons p o ih =>
    obtain ⟨k', v⟩ := p
    by_cases h : k = k'
    · subst h; simp
    · have hb : (k == k') = false := by simpa using h
      rw [List.lookup_cons, hb, List.map_cons, List.mem_cons]
      simp only [h, false_or]
      exact ih

theorem lookup_some_iff {o : Obj} (hn : (o.map Prod.fst).Nodup) {k : Str} {v : JVal} : o.lookup k = some v ↔ (k, v) ∈ o := by
  induction o with
  | nil => simp
  | cons p o ih =>
    obtain ⟨k', v'⟩ := p
    have hn' : k' ∉ o.map Prod.fst ∧ (o.map Prod.fst).Nodup := List.nodup_cons.mp hn
    by_cases h : k = k'
    · subst h
      simp only [List.lookup_cons, beq_self_eq_true, Option.some.injEq, List.mem_cons, Prod.mk.injEq, true_and]
      constructor
      · rintro rfl; exact .inl rfl
      · rintro (rfl | hm)
        · rfl
        · exact absurd (List.mem_map_of_mem (f := Prod.fst) hm) hn'.1
    · have hb : (k == k') = false := by simpa using h
      simp only [List.lookup_cons, hb, List.mem_cons, Prod.mk.injEq, h, false_and, false_or]
      exact ih hn'.2

theorem lookup_perm {o o' : Obj} (hp : o.Perm o') (hn : (o'.map Prod.fst).Nodup) (k : Str) : o.lookup k = o'.lookup k := by
  have hn1 : (o.map Prod.fst).Nodup := (hp.map Prod.fst).nodup_iff.mpr hn
  apply Option.ext; intro v
  rw [lookup_some_iff hn1, lookup_some_iff hn, hp.mem_iff]

theorem any_iff (o : Obj) (k : Str) : o.any (fun p => p.1 = k) = true ↔ k ∈ o.map Prod.fst := by
  simp [List.any_eq_true, List.mem_map]

theorem assign_names (o : Obj) (k : Str) (v : JVal) :
    (assign o k v).map Prod.fst =
      if k ∈ o.map Prod.fst ∨ k = lit "__proto__" then o.map Prod.fst else o.map Prod.fst ++ [k] := by
  unfold assign
  by_cases h : k ∈ o.map Prod.fst
  · rw [if_pos ((any_iff o k).mpr h), if_pos (.inl h), List.map_map]
    refine List.map_congr_left fun p _ => ?_
    by_cases e : p.1 = k <;> simp [Function.comp, e]
  · rw [if_neg (fun e => h ((any_iff o k).mp e))]
    by_cases e : k = lit "__proto__"
    · rw [if_pos e, if_pos (.inr e)]
    · rw [if_neg e, if_neg (by simp only [not_or]; exact ⟨h, e⟩)]; simp

theorem assign_nodup (o : Obj) (k : Str) (v : JVal) (h : (o.map Prod.fst).Nodup) : ((assign o k v).map Prod.fst).Nodup := by
  rw [assign_names]
  split
  · exact h
  · rename_i hc
    simp only [not_or] at hc
    rw [List.nodup_append]
    refine ⟨h, by simp, ?_⟩
    intro a ha b hb e
    simp only [List.mem_singleton] at hb
    subst hb; subst e; exact hc.1 ha

theorem assign_lookup (o : Obj) (k : Str) (v : JVal) (k' : Str) :
    (assign o k v).lookup k' =
      if k' = k then (if k = lit "__proto__" ∧ o.lookup k = none then none else some v) else o.lookup k' := by
  unfold assign
  by_cases h : k ∈ o.map Prod.fst
  · rw [if_pos ((any_iff o k).mpr h)]
    have hl : o.lookup k ≠ none := fun e => lookup_none_iff.mp e h
    have key : ∀ o : Obj, (o.map fun p => if p.1 = k then (k, v) else p).lookup k' =
        if k' = k then (if o.lookup k = none then none else some v) else o.lookup k' := by
      intro o
      induction o with
      | nil => simp
      | cons p o ih =>
        obtain ⟨a, b⟩ := p
        by_cases e : k' = k
        · subst e
          by_cases ea : a = k'
          · subst ea; simp
          · have ea' : ¬ k' = a := fun h => ea h.symm
            have hb : (k' == a) = false := by simpa using ea'
            simp only [List.map_cons, if_neg ea, List.lookup_cons, hb]
            simpa using ih
        · rw [if_neg e] at ih
          rw [if_neg e]
          by_cases ea : a = k
          · have hb : (k' == k) = false := by simpa using e
            subst ea
            simp only [List.map_cons, if_true, List.lookup_cons, hb]
            exact ih
          · simp only [List.map_cons, if_neg ea, List.lookup_cons]
            rw [ih]
    rw [key]
    by_cases e : k' = k
    · simp [e, hl]
    · simp [e]
  · have hl : o.lookup k = none := lookup_none_iff.mpr h
    rw [if_neg (fun e => h ((any_iff o k).mp e))]
    by_cases e : k = lit "__proto__"
    · rw [if_pos e]
      by_cases e' : k' = k
      · rw [if_pos e', if_pos ⟨e, hl⟩, e']; exact hl
      · rw [if_neg e']
    · rw [if_neg e]
      by_cases e' : k' = k
      · subst e'
        rw [List.lookup_append, hl]
        simp [e]
      · have hb : (k' == k) = false := by simpa using e'
        rw [List.lookup_append, if_neg e']
        simp [List.lookup_cons, hb]

theorem assign_same (o : Obj) (k : Str) (v : JVal) (hn : (o.map Prod.fst).Nodup)
    (h : o.lookup k = some v ∨ (k = lit "__proto__" ∧ o.lookup k = none)) : assign o k v = o := by
  unfold assign
  rcases h with h | ⟨e, h⟩
  · have hm : k ∈ o.map Prod.fst := Decidable.byContradiction fun hc => by rw [lookup_none_iff.mpr hc] at h; cases h
    rw [if_pos ((any_iff o k).mpr hm)]
    conv => rhs; rw [← List.map_id o]
    refine List.map_congr_left fun p hp => ?_
    by_cases e : p.1 = k
    · rw [if_pos e]
      have hv := (lookup_some_iff hn).mpr (show (k, p.2) ∈ o from by rw [← e]; exact hp)
      rw [h] at hv; cases hv
      rw [← e]; rfl
    · rw [if_neg e]; rfl
  · have hm : k ∉ o.map Prod.fst := lookup_none_iff.mp h
    rw [if_neg (fun e => hm ((any_iff o k).mp e)), if_pos e]

theorem foldl_nodup (t p : Obj) (h : (p.map Prod.fst).Nodup) :
    ((t.foldl (fun o q => assign o q.1 q.2) p).map Prod.fst).Nodup := by
  induction t generalizing p with
  | nil => exact h
  | cons q t ih => exact ih _ (assign_nodup p q.1 q.2 h)

theorem foldl_overlaid (t p : Obj) (ht : (t.map Prod.fst).Nodup) : Overlaid t p (t.foldl (fun o q => assign o q.1 q.2) p) := by
  induction t generalizing p with
  | nil =>
    intro k
    simp only [List.foldl_nil, List.lookup_nil]
    split
    · rename_i h; exact h.2
    · rfl
  | cons q t ih =>
    obtain ⟨a, v⟩ := q
    have hn : a ∉ t.map Prod.fst ∧ (t.map Prod.fst).Nodup := List.nodup_cons.mp ht
    intro k
    rw [List.foldl_cons, ih _ hn.2 k, assign_lookup]
    by_cases e : k = a
    · subst e
      have hl : t.lookup k = none := lookup_none_iff.mpr hn.1
      simp only [if_true, hl, List.lookup_cons, beq_self_eq_true]
      by_cases hc : k = lit "__proto__" ∧ p.lookup k = none
      · simp [hc]
      · rw [if_neg hc]
        simp
    · have hb : (k == a) = false := by simpa using e
      rw [if_neg e, List.lookup_cons, hb]

theorem foldl_same (t m : Obj) (hm : (m.map Prod.fst).Nodup)
    (h : ∀ q ∈ t, m.lookup q.1 = some q.2 ∨ (q.1 = lit "__proto__" ∧ m.lookup q.1 = none)) :
    t.foldl (fun o q => assign o q.1 q.2) m = m := by
  induction t with
  | nil => rfl
  | cons q t ih =>
    rw [List.foldl_cons, assign_same m q.1 q.2 hm (h q (by simp))]
    exact ih fun q' hq' => h q' (by simp [hq'])

theorem foldl_names (t p : Obj) (ht : (t.map Prod.fst).Nodup) :
    (t.foldl (fun o q => assign o q.1 q.2) p).map Prod.fst =
      p.map Prod.fst ++ (t.map Prod.fst).filter (fun k => k ∉ p.map Prod.fst ∧ k ≠ lit "__proto__") := by
  induction t generalizing p with
  | nil => simp
  | cons q t ih =>
    obtain ⟨a, v⟩ := q
    have hn : a ∉ t.map Prod.fst ∧ (t.map Prod.fst).Nodup := List.nodup_cons.mp ht
    rw [List.foldl_cons, ih _ hn.2, assign_names]
    by_cases h : a ∈ p.map Prod.fst ∨ a = lit "__proto__"
    · rw [if_pos h, List.map_cons, List.filter_cons_of_neg]
      simp only [decide_eq_true_eq, not_and, Decidable.not_not]
      intro h'; exact h.resolve_left h'
    · rw [if_neg h, List.map_cons, List.filter_cons_of_pos (by simpa [not_or] using h)]
      rw [List.append_assoc, List.singleton_append]
      congr 2
      refine List.filter_congr fun k hk => ?_
      have : k ≠ a := fun e => hn.1 (e ▸ hk)
      simp only [List.mem_append, List.mem_singleton, this, or_false]

end Pkg
end Verif
